import Verif.Includes.Model

/-!
# Includes
-/

namespace Verif.Includes

theorem run_append (raises : Nat → Bool) (s : State) (a b : List Op) :
    run raises s (a ++ b) = run raises (run raises s a) b := by
  induction a generalizing s with
  | nil => rfl
  | cons op a ih => exact ih _

/-- The objects exported under a name, in order. -/
def exports (name : Nat) : List Op → List Nat
  | [] => []
  | .export n v :: ops => if n = name then v :: exports name ops else exports name ops
  | _ :: ops => exports name ops

theorem exports_append (name : Nat) (a b : List Op) : exports name (a ++ b) = exports name a ++ exports name b := by
  induction a with
  | nil => rfl
  | cons op a ih => cases op <;> simp only [List.cons_append, exports, ih] <;> split <;> simp

theorem callAll_kept (raises : Nat → Bool) (name v : Nat) (ws : List Waiting) (s : State) :
    (callAll raises name v ws s).satisfied = s.satisfied ∧ (callAll raises name v ws s).callbacks = s.callbacks := by
  induction ws generalizing s with
  | nil => exact ⟨rfl, rfl⟩
  | cons w ws ih =>
    cases w with
    | module m => exact ih _
    | callback k =>
      unfold callAll
      dsimp only
      split
      · exact ⟨rfl, rfl⟩
      · exact ih _

/-- What holds of a name: it is satisfied with what was exported last, and only when it is not something waits. -/
structure Inv (s : State) (ops : List Op) : Prop where
  last : ∀ n, s.satisfied n = (exports n ops).getLast?
  none : ∀ n, s.satisfied n ≠ none → s.callbacks n = []

theorem inv_step (raises : Nat → Bool) (s : State) (ops : List Op) (op : Op) (h : Inv s ops) :
    Inv (step raises s op) (ops ++ [op]) := by
  cases op with
  | incl m x n =>
    have e : ∀ k, exports k (ops ++ [.incl m x n]) = exports k ops := fun k => by simp [exports_append, exports]
    unfold step
    dsimp only
    cases hs : s.satisfied n with
    | some v => exact ⟨fun k => by rw [e]; exact h.last k, h.none⟩
    | none =>
      refine ⟨fun k => by rw [e]; exact h.last k, ?_⟩
      intro k hk
      show put s.callbacks n _ k = []
      unfold put
      split
      · rename_i hkn; subst hkn; exact absurd hs hk
      · exact h.none k hk
  | inclCallback n k' =>
    have e : ∀ k, exports k (ops ++ [.inclCallback n k']) = exports k ops := fun k => by simp [exports_append, exports]
    unfold step
    dsimp only
    cases hs : s.satisfied n with
    | some v => exact ⟨fun k => by rw [e]; exact h.last k, h.none⟩
    | none =>
      refine ⟨fun k => by rw [e]; exact h.last k, ?_⟩
      intro k hk
      show put s.callbacks n _ k = []
      unfold put
      split
      · rename_i hkn; subst hkn; exact absurd hs hk
      · exact h.none k hk
  | «export» n v =>
    unfold step
    dsimp only
    have hk := callAll_kept raises n v (s.callbacks n)
      { s with satisfied := put s.satisfied n (some v), callbacks := put s.callbacks n [] }
    constructor
    · intro k
      rw [hk.1]
      show put s.satisfied n (some v) k = _
      unfold put
      rw [exports_append]
      by_cases hkn : k = n
      · subst hkn; simp [exports]
      · have : ¬n = k := fun h => hkn h.symm
        rw [if_neg hkn]
        simpa [exports, this] using h.last k
    · intro k hk'
      rw [hk.1] at hk'
      rw [hk.2]
      show put s.callbacks n [] k = []
      unfold put
      have hk'' : put s.satisfied n (some v) k ≠ Option.none := hk'
      unfold put at hk''
      split
      · rfl
      · rename_i hkn
        rw [if_neg hkn] at hk''
        exact h.none k hk''

theorem inv_run (raises : Nat → Bool) (ops : List Op) : Inv (run raises {} ops) ops := by
  have H : ∀ (b a : List Op) (s : State), Inv s a → Inv (run raises s b) (a ++ b) := by
    intro b
    induction b with
    | nil => intro a s h; simpa [run] using h
    | cons op b ih =>
      intro a s h
      have := ih (a ++ [op]) _ (inv_step raises s a op h)
      rw [List.append_assoc] at this
      exact this
  exact H ops [] {} ⟨fun _ => rfl, fun _ _ => rfl⟩

/-! ## Variables of modules -/

/-- `incl` of the name `name` into the variable of the same name is what `m` does with that variable. -/
def Own (m name : Nat) (ops : List Op) : Prop :=
  ∀ var n, .incl m var n ∈ ops → (var = name ↔ n = name)

theorem callAll_var_other (raises : Nat → Bool) (n v : Nat) (ws : List Waiting) (s : State) (m name : Nat) (h : name ≠ n) :
    (callAll raises n v ws s).var m name = s.var m name := by
  induction ws generalizing s with
  | nil => rfl
  | cons w ws ih =>
    cases w with
    | module m' =>
      unfold callAll
      rw [ih]
      show putVar s.var m' n (.obj v) m name = _
      unfold putVar
      rw [if_neg (by simp [h])]
    | callback k =>
      unfold callAll
      dsimp only
      split
      · rfl
      · exact ih _

theorem callAll_var (raises : Nat → Bool) (n v : Nat) (ws : List Waiting) (s : State) (m : Nat)
    (hr : ∀ k, raises k = false) :
    (callAll raises n v ws s).var m n = if Waiting.module m ∈ ws then .obj v else s.var m n := by
  induction ws generalizing s with
  | nil => rfl
  | cons w ws ih =>
    cases w with
    | module m' =>
      unfold callAll
      rw [ih]
      show (if Waiting.module m ∈ ws then Val.obj v else putVar s.var m' n (.obj v) m n) = _
      unfold putVar
      by_cases hm : m = m'
      · subst hm; simp
      · simp [hm]
    | callback k =>
      unfold callAll
      dsimp only
      rw [if_neg (by simp [hr k]), ih]
      simp

/-- C303 (partial), full statement: a variable for which a module includes a name has the object exported under
it, as soon as it is exported, in whatever order that happens. Proved for variables with the same name as what
is included, when no callback raises and nothing is exported twice under the name. -/
theorem C303_variables_partial (raises : Nat → Bool) (hr : ∀ k, raises k = false) (ops : List Op) (m name v : Nat)
    (hi : .incl m name name ∈ ops) (ho : Own m name ops) (he : exports name ops = [v]) :
    (run raises {} ops).var m name = .obj v := by
  have H : ∀ (b a : List Op) (s : State), Inv s a → Own m name b → (exports name (a ++ b)).length ≤ 1 →
      (Op.incl m name name ∈ a →
        (exports name a = [] → Waiting.module m ∈ s.callbacks name) ∧
          (∀ x, exports name a = [x] → s.var m name = .obj x)) →
      (Op.incl m name name ∈ a ++ b → ∀ x, exports name (a ++ b) = [x] → (run raises s b).var m name = .obj x) := by
    intro b
    induction b with
    | nil =>
      intro a s _ _ _ h hm x hx
      simp only [List.append_nil] at hm hx
      exact (h hm).2 x hx
    | cons op b ih =>
      intro a s hinv ho hlen h hm x hx
      have e : a ++ op :: b = (a ++ [op]) ++ b := by simp
      rw [e] at hm hx hlen
      have hlen1 : (exports name (a ++ [op])).length ≤ 1 := by
        rw [exports_append] at hlen
        simp at hlen
        omega
      have hlast := hinv.last name
      refine ih (a ++ [op]) _ (inv_step raises s a op hinv) (fun var n hh => ho var n (by simp [hh])) hlen ?_ hm x hx
      cases op with
      | incl m' var n =>
        have hex : exports name (a ++ [.incl m' var n]) = exports name a := by simp [exports_append, exports]
        have hown : m' = m → (var = name ↔ n = name) := by
          rintro rfl
          exact ho var n (by simp)
        intro hmem
        rw [hex]
        unfold step
        dsimp only
        by_cases hthis : m' = m ∧ n = name
        · obtain ⟨rfl, rfl⟩ := hthis
          have hvar : var = n := (hown rfl).2 rfl
          subst hvar
          rcases hc : exports var a with _ | ⟨y, _ | ⟨z, l⟩⟩
          · rw [hc] at hlast
            simp only [List.getLast?_nil] at hlast
            rw [hlast]
            dsimp only
            refine ⟨fun _ => ?_, fun x hx => by cases hx⟩
            show _ ∈ put s.callbacks var _ var
            simp [put]
          · rw [hc] at hlast
            simp only [List.getLast?_singleton] at hlast
            rw [hlast]
            dsimp only
            refine ⟨fun hh => by simp at hh, ?_⟩
            intro x hx
            injection hx with hx
            subst hx
            show putVar s.var m' var (.obj y) m' var = _
            simp [putVar]
          · rw [hex, hc] at hlen1
            simp at hlen1
        · have hmem' : Op.incl m name name ∈ a := by
            rcases List.mem_append.1 hmem with hh | hh
            · exact hh
            · simp at hh
              exact absurd ⟨hh.1.symm, hh.2.2.symm⟩ hthis
          have hnv : ¬(m = m' ∧ name = var) := by
            rintro ⟨h1, h2⟩
            exact hthis ⟨h1.symm, (hown h1.symm).1 h2.symm⟩
          have h' := h hmem'
          cases hs : s.satisfied n with
          | some w =>
            dsimp only
            refine ⟨h'.1, ?_⟩
            intro x hx
            show putVar s.var m' var (.obj w) m name = _
            unfold putVar
            rw [if_neg hnv]
            exact h'.2 x hx
          | none =>
            dsimp only
            refine ⟨?_, ?_⟩
            · intro hh
              show _ ∈ put s.callbacks n _ name
              unfold put
              split
              · rename_i hn
                subst hn
                simp [h'.1 hh]
              · exact h'.1 hh
            · intro x hx
              show putVar s.var m' var .placeholder m name = _
              unfold putVar
              rw [if_neg hnv]
              exact h'.2 x hx
      | inclCallback n k =>
        have hex : exports name (a ++ [.inclCallback n k]) = exports name a := by simp [exports_append, exports]
        intro hmem
        have hmem' : Op.incl m name name ∈ a := by simpa using hmem
        have h' := h hmem'
        rw [hex]
        unfold step
        dsimp only
        cases hs : s.satisfied n with
        | some w => exact h'
        | none =>
          dsimp only
          refine ⟨?_, h'.2⟩
          intro hh
          show _ ∈ put s.callbacks n _ name
          unfold put
          split
          · rename_i hn
            subst hn
            simp [h'.1 hh]
          · exact h'.1 hh
      | «export» n w =>
        intro hmem
        have hmem' : Op.incl m name name ∈ a := by simpa using hmem
        have h' := h hmem'
        unfold step
        dsimp only
        have hk := callAll_kept raises n w (s.callbacks n)
          { s with satisfied := put s.satisfied n (some w), callbacks := put s.callbacks n [] }
        by_cases hn : n = name
        · subst hn
          have hex : exports n (a ++ [.export n w]) = exports n a ++ [w] := by simp [exports_append, exports]
          rw [hex] at hlen1 ⊢
          have hnil : exports n a = [] := by
            simp at hlen1
            exact hlen1
          rw [hnil]
          refine ⟨fun hh => by simp at hh, ?_⟩
          intro x hx
          have hx' : w = x := by simpa using hx
          subst hx'
          rw [callAll_var raises n w _ _ m hr, if_pos (h'.1 hnil)]
        · have hex : exports name (a ++ [.export n w]) = exports name a := by simp [exports_append, exports, hn]
          rw [hex]
          refine ⟨?_, ?_⟩
          · intro hh
            rw [hk.2]
            show _ ∈ put s.callbacks n [] name
            unfold put
            rw [if_neg (fun h => hn h.symm)]
            exact h'.1 hh
          · intro x hx
            rw [callAll_var_other _ _ _ _ _ _ _ (fun h => hn h.symm)]
            exact h'.2 x hx
  exact H ops [] {} ⟨fun _ => rfl, fun _ _ => rfl⟩ ho (by simp [he]) (by simp) hi v he

example : (run (fun _ => false) {} [.incl 0 5 5, .inclCallback 5 9, .export 5 7, .incl 1 5 5]).var 0 5 = .obj 7 ∧
    (run (fun _ => false) {} [.incl 0 5 5, .inclCallback 5 9, .export 5 7, .incl 1 5 5]).var 1 5 = .obj 7 := by decide

/-- C303: a variable with another name than what is included stays `NotImplemented`. -/
theorem C303_other_name_violated (raises : Nat → Bool) (m var name v : Nat) (h : var ≠ name) :
    (run raises {} [.incl m var name, .export name v]).var m var = .placeholder ∧
      (run raises {} [.incl m var name, .export name v]).var m name = .obj v := by
  constructor <;> simp [run, step, put, callAll, putVar, h]

/-- C303: when another object is exported under the name, modules which included it keep the first. -/
theorem C303_exported_again_violated (raises : Nat → Bool) (m name v w : Nat) :
    (run raises {} [.incl m name name, .export name v, .export name w]).var m name = .obj v ∧
      (run raises {} [.incl m name name, .export name v, .export name w]).satisfied name = some w := by
  constructor <;> simp [run, step, put, callAll, putVar]

/-- C303: when a callback raises, modules behind it never get the object, whatever is done later. -/
theorem C303_behind_raising_violated (raises : Nat → Bool) (k m name v : Nat) (h : raises k = true) :
    (run raises {} [.inclCallback name k, .incl m name name, .export name v]).var m name = .placeholder ∧
      (run raises {} [.inclCallback name k, .incl m name name, .export name v]).callbacks name = [] := by
  constructor <;> simp [run, step, put, callAll, putVar, h]

/-! ## Callbacks -/

/-- How often a callback was called. -/
def calls (k : Nat) (s : State) : List Nat := s.called.filterMap fun p => if p.1 = k then some p.2 else none

/-- With what a callback which is given once shall have been called. -/
inductive Due (k name : Nat) : List Op → List Nat → Prop
  /-- It was given when objects had been exported: called with the last. -/
  | atOnce (a b : List Op) (v : Nat) : (exports name a).getLast? = some v → Due k name (a ++ .inclCallback name k :: b) [v]
  /-- It was given before: called with the first object which is exported then. -/
  | later (a b : List Op) : exports name a = [] → Due k name (a ++ .inclCallback name k :: b) ((exports name b).take 1)

theorem callAll_called (raises : Nat → Bool) (hr : ∀ k, raises k = false) (n v : Nat) (ws : List Waiting) (s : State) :
    (callAll raises n v ws s).called =
      s.called ++ ws.filterMap (fun w => match w with | .callback k => some (k, v) | .module _ => none) := by
  induction ws generalizing s with
  | nil => simp [callAll]
  | cons w ws ih =>
    cases w with
    | module m => unfold callAll; rw [ih]; simp
    | callback k =>
      unfold callAll
      dsimp only
      rw [if_neg (by simp [hr k]), ih]
      simp

/-- How often a callback waits for a name. -/
def waits (k : Nat) (ws : List Waiting) : List Unit :=
  ws.filterMap fun w => match w with | .callback j => if j = k then some () else none | .module _ => none

theorem calls_append (k v : Nat) (l : List (Nat × Nat)) (ws : List Waiting) :
    (l ++ ws.filterMap (fun w => match w with | .callback k => some (k, v) | .module _ => none)).filterMap
        (fun p => if p.1 = k then some p.2 else none) =
      l.filterMap (fun p => if p.1 = k then some p.2 else none) ++ (waits k ws).map (fun _ => v) := by
  rw [List.filterMap_append]
  congr 1
  induction ws with
  | nil => rfl
  | cons w ws ih =>
    cases w with
    | module m => simpa [waits] using ih
    | callback j =>
      by_cases hj : j = k
      · simpa [waits, hj] using ih
      · simpa [waits, hj] using ih

theorem waits_append (k : Nat) (a b : List Waiting) : waits k (a ++ b) = waits k a ++ waits k b := by
  simp [waits]

/-- Steps which do not give the callback change nothing for it but by exports of what it waits for. -/
theorem step_calls (raises : Nat → Bool) (hr : ∀ k, raises k = false) (s : State) (op : Op) (k name : Nat)
    (hop : ∀ n, op ≠ .inclCallback n k) (hw : ∀ n, n ≠ name → waits k (s.callbacks n) = []) :
    (∀ n, n ≠ name → waits k ((step raises s op).callbacks n) = []) ∧
      ((∀ v, op = .export name v →
          calls k (step raises s op) = calls k s ++ (waits k (s.callbacks name)).map (fun _ => v) ∧
            waits k ((step raises s op).callbacks name) = []) ∧
        ((∀ v, op ≠ .export name v) →
          calls k (step raises s op) = calls k s ∧
            waits k ((step raises s op).callbacks name) = waits k (s.callbacks name))) := by
  cases op with
  | incl m var n =>
    refine ⟨?_, ⟨(fun v hv => by cases hv), fun _ => ?_⟩⟩
    · intro n' hn'
      unfold step
      dsimp only
      cases s.satisfied n with
      | some v => exact hw n' hn'
      | none =>
        show waits k (put s.callbacks n _ n') = []
        unfold put
        split
        · rename_i e; subst e; rw [waits_append, hw _ hn']; rfl
        · exact hw n' hn'
    · unfold step
      dsimp only
      cases s.satisfied n with
      | some v => exact ⟨rfl, rfl⟩
      | none =>
        refine ⟨rfl, ?_⟩
        show waits k (put s.callbacks n _ name) = _
        unfold put
        split
        · rename_i e; subst e; rw [waits_append]; simp [waits]
        · rfl
  | inclCallback n j =>
    have hj : j ≠ k := by rintro rfl; exact hop n rfl
    refine ⟨?_, ⟨(fun v hv => by cases hv), fun _ => ?_⟩⟩
    · intro n' hn'
      unfold step
      dsimp only
      cases s.satisfied n with
      | some v => exact hw n' hn'
      | none =>
        show waits k (put s.callbacks n _ n') = []
        unfold put
        split
        · rename_i e; subst e; rw [waits_append, hw _ hn']; simp [waits, hj]
        · exact hw n' hn'
    · unfold step
      dsimp only
      cases s.satisfied n with
      | some v =>
        refine ⟨?_, rfl⟩
        show (s.called ++ [(j, v)]).filterMap _ = _
        rw [List.filterMap_append]
        simp [hj, calls]
      | none =>
        refine ⟨rfl, ?_⟩
        show waits k (put s.callbacks n _ name) = _
        unfold put
        split
        · rename_i e; subst e; rw [waits_append]; simp [waits, hj]
        · rfl
  | «export» n w =>
    have hk := callAll_kept raises n w (s.callbacks n)
      { s with satisfied := put s.satisfied n (some w), callbacks := put s.callbacks n [] }
    have hc : calls k (step raises s (.export n w)) = calls k s ++ (waits k (s.callbacks n)).map (fun _ => w) := by
      unfold calls step
      dsimp only
      rw [callAll_called raises hr, calls_append k w]
    have hcb : (step raises s (.export n w)).callbacks = put s.callbacks n [] := hk.2
    refine ⟨?_, ⟨?_, ?_⟩⟩
    · intro n' hn'
      rw [hcb]
      unfold put
      split
      · rfl
      · exact hw n' hn'
    · intro v hv
      injection hv with h1 h2
      subst h1 h2
      rw [hcb, hc]
      exact ⟨rfl, by simp [put, waits]⟩
    · intro hne
      have hn : n ≠ name := by rintro rfl; exact hne w rfl
      rw [hc, hw n hn, hcb]
      refine ⟨by simp, ?_⟩
      unfold put
      rw [if_neg (fun h => hn h.symm)]

theorem run_calls (raises : Nat → Bool) (hr : ∀ k, raises k = false) (ops : List Op) (s : State) (k name : Nat)
    (hops : ∀ n, .inclCallback n k ∉ ops) (hw : ∀ n, n ≠ name → waits k (s.callbacks n) = []) :
    calls k (run raises s ops) = calls k s ++
      ((exports name ops).take 1).flatMap (fun v => (waits k (s.callbacks name)).map (fun _ => v)) ∧
      ∀ n, n ≠ name → waits k ((run raises s ops).callbacks n) = [] := by
  induction ops generalizing s with
  | nil => exact ⟨by simp [run, exports], hw⟩
  | cons op ops ih =>
    have h1 := step_calls raises hr s op k name (fun n e => hops n (by simp [e])) hw
    have h2 := ih (step raises s op) (fun n e => hops n (by simp [e])) h1.1
    refine ⟨?_, h2.2⟩
    show calls k (run raises (step raises s op) ops) = _
    rw [h2.1]
    by_cases he : ∃ v, op = .export name v
    · obtain ⟨v, rfl⟩ := he
      have h3 := h1.2.1 v rfl
      rw [h3.1, h3.2]
      simp [exports]
    · have h3 := h1.2.2 (fun v e => he ⟨v, e⟩)
      have e : exports name (op :: ops) = exports name ops := by
        cases op with
        | «export» n w =>
          have : n ≠ name := by rintro rfl; exact he ⟨w, rfl⟩
          simp [exports, this]
        | incl m var n => rfl
        | inclCallback n j => rfl
      rw [h3.1, h3.2, e]

theorem waits_empty (raises : Nat → Bool) (hr : ∀ k, raises k = false) (a : List Op) (k : Nat)
    (h : ∀ n, .inclCallback n k ∉ a) : (∀ n, waits k ((run raises {} a).callbacks n) = []) ∧ calls k (run raises {} a) = [] := by
  have h1 : ∀ name, _ := fun name => run_calls raises hr a {} k name h (fun _ _ => rfl)
  refine ⟨fun n => (h1 (n + 1)).2 n (by omega), ?_⟩
  rw [(h1 0).1]
  simp [calls, waits]

/-- C304 (partial), full statement: a callback given for a name is called exactly once, with the object exported
under it. Proved when no callback raises. -/
theorem C304_called_once_partial (raises : Nat → Bool) (hr : ∀ k, raises k = false) (a b : List Op) (k name : Nat)
    (ha : ∀ n, .inclCallback n k ∉ a) (hb : ∀ n, .inclCallback n k ∉ b) :
    Due k name (a ++ .inclCallback name k :: b) (calls k (run raises {} (a ++ .inclCallback name k :: b))) := by
  have hinv := inv_run raises a
  have hw := waits_empty raises hr a k ha
  rw [run_append]
  show Due k name _ (calls k (run raises (step raises (run raises {} a) (.inclCallback name k)) b))
  generalize run raises {} a = S at hinv hw ⊢
  cases hs : S.satisfied name with
  | some v =>
    have e : step raises S (.inclCallback name k) =
        { S with called := S.called ++ [(k, v)] } := by
      unfold step; dsimp only; rw [hs]
    rw [e, (run_calls raises hr b { S with called := S.called ++ [(k, v)] } k name hb (fun n _ => hw.1 n)).1]
    have hv : (exports name a).getLast? = some v := by rw [← hinv.last name, hs]
    have hcalls : calls k { S with called := S.called ++ [(k, v)] } = [v] := by
      have h0 := hw.2
      unfold calls at h0 ⊢
      dsimp only
      rw [List.filterMap_append, h0]
      simp
    rw [hcalls]
    have hz : ∀ l : List Nat, l.flatMap (fun v => (waits k (S.callbacks name)).map (fun _ => v)) = [] := by
      intro l; rw [hw.1 name]; simp
    dsimp only
    rw [hz]
    exact .atOnce a b v hv
  | none =>
    have e : step raises S (.inclCallback name k) =
        { S with callbacks := put S.callbacks name (S.callbacks name ++ [.callback k]) } := by
      unfold step; dsimp only; rw [hs]
    have hnil : exports name a = [] := by
      have := hinv.last name
      rw [hs] at this
      exact List.getLast?_eq_none_iff.1 this.symm
    rw [e, (run_calls raises hr b _ k name hb (by
      intro n hn
      show waits k (put _ name _ n) = []
      unfold put
      rw [if_neg hn]
      exact hw.1 n)).1]
    have hww : waits k (put S.callbacks name (S.callbacks name ++ [.callback k]) name) = [()] := by
      unfold put
      rw [if_pos rfl, waits_append, hw.1 name]
      simp [waits]
    have hcalls : calls k { S with callbacks := put S.callbacks name (S.callbacks name ++ [.callback k]) } = [] := hw.2
    rw [hcalls]
    dsimp only
    rw [hww]
    have hz : ∀ l : List Nat, l.flatMap (fun v => [()].map (fun _ => v)) = l := by
      intro l; induction l with
      | nil => rfl
      | cons x l ih => simp
    rw [hz, List.nil_append]
    exact .later a b hnil

/-- C304: behind a callback which raises others are never called. -/
theorem C304_behind_raising_violated (raises : Nat → Bool) (k j name v : Nat) (h : raises k = true) (hj : j ≠ k) :
    calls j (run raises {} [.inclCallback name k, .inclCallback name j, .export name v]) = [] ∧
      (run raises {} [.inclCallback name k, .inclCallback name j, .export name v]).callbacks name = [] := by
  have hj' : ¬k = j := fun e => hj e.symm
  constructor <;> simp [run, step, put, callAll, calls, h, hj']

/-! ## Satisfaction -/

/-- C305: a name is waited for exactly if it is included and was not exported. -/
theorem C305_satisfaction (raises : Nat → Bool) (ops : List Op) (name : Nat) :
    waitingFor (run raises {} ops) name = true ↔
      exports name ops = [] ∧ ((∃ m var, .incl m var name ∈ ops) ∨ ∃ k, .inclCallback name k ∈ ops) := by
  have H : ∀ (b a : List Op) (s : State), Inv s a →
      (exports name a = [] → (s.callbacks name ≠ [] ↔ ((∃ m var, Op.incl m var name ∈ a) ∨ ∃ k, Op.inclCallback name k ∈ a))) →
      exports name (a ++ b) = [] →
      ((run raises s b).callbacks name ≠ [] ↔ ((∃ m var, Op.incl m var name ∈ a ++ b) ∨ ∃ k, Op.inclCallback name k ∈ a ++ b)) := by
    intro b
    induction b with
    | nil => intro a s _ h he; simpa [run] using h (by simpa using he)
    | cons op b ih =>
      intro a s hinv h he
      have e : a ++ op :: b = (a ++ [op]) ++ b := by simp
      rw [e] at he ⊢
      refine ih (a ++ [op]) _ (inv_step raises s a op hinv) ?_ he
      intro hea
      have hea' : exports name a = [] := by
        rw [exports_append] at hea
        exact (List.append_eq_nil_iff.1 hea).1
      have hs : s.satisfied name = none := by rw [hinv.last name, hea']; rfl
      have h' := h hea'
      cases op with
      | incl m var n =>
        unfold step
        dsimp only
        by_cases hn : n = name
        · subst hn
          rw [hs]
          simp [put]
          exact .inl ⟨m, var, .inr ⟨rfl, rfl⟩⟩
        · have hn' : ¬name = n := fun e => hn e.symm
          have hp : (∃ m' var', Op.incl m' var' name ∈ a ++ [.incl m var n]) ↔ ∃ m' var', Op.incl m' var' name ∈ a := by simp [hn']
          have hq : (∃ k, Op.inclCallback name k ∈ a ++ [.incl m var n]) ↔ ∃ k, Op.inclCallback name k ∈ a := by simp
          rw [hp, hq]
          cases s.satisfied n with
          | some w => exact h'
          | none => simpa [put, hn'] using h'
      | inclCallback n k =>
        unfold step
        dsimp only
        by_cases hn : n = name
        · subst hn
          rw [hs]
          simp [put]
        · have hn' : ¬name = n := fun e => hn e.symm
          have hp : (∃ m' var', Op.incl m' var' name ∈ a ++ [.inclCallback n k]) ↔ ∃ m' var', Op.incl m' var' name ∈ a := by simp
          have hq : (∃ j, Op.inclCallback name j ∈ a ++ [.inclCallback n k]) ↔ ∃ j, Op.inclCallback name j ∈ a := by simp [hn']
          rw [hp, hq]
          cases s.satisfied n with
          | some w => exact h'
          | none => simpa [put, hn'] using h'
      | «export» n w =>
        have hn : n ≠ name := by
          rintro rfl
          rw [exports_append] at hea
          simp [exports] at hea
        have hn' : ¬name = n := fun e => hn e.symm
        have hcb : (step raises s (.export n w)).callbacks = put s.callbacks n [] := (callAll_kept raises n w (s.callbacks n) _).2
        rw [hcb]
        simpa [put, hn'] using h'
  have hinv := inv_run raises ops
  have hrun := H ops [] {} ⟨fun _ => rfl, fun _ _ => rfl⟩ (by simp)
  simp only [List.nil_append] at hrun
  unfold waitingFor
  by_cases he : exports name ops = []
  · simpa [he] using hrun he
  · have hs : (run raises {} ops).satisfied name ≠ none := by
      rw [hinv.last name]
      intro h
      exact he (List.getLast?_eq_none_iff.1 h)
    have := hinv.none name hs
    simp [this, he]

example : waitingFor (run (fun _ => false) {} [.incl 0 5 5, .export 6 1]) 5 = true ∧
    waitingFor (run (fun _ => false) {} [.incl 0 5 5, .export 5 1]) 5 = false := by decide

end Verif.Includes
