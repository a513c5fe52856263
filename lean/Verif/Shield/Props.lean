import Verif.Shield.Model
import Verif.Future.Props
/-! Property theorems C14. -/
namespace Verif.Shield
open Verif.Future
variable {α ε : Type}

/-! ## Vocabulary -/

/-- Users do not stop the loop and cannot name the internal chaining callback. -/
def UserOp : Future.Op α ε → Prop
  | .setRunning b => b = true
  | .addDoneCallback c => c ≠ 0
  | .removeDoneCallback c => c ≠ 0
  | _ => True

def Allowed : Op α ε → Prop
  | .inner op => UserOp op
  | .outer op => UserOp op
  | _ => True

/-- An attempt to complete or cancel the future. -/
def Completes : Future.Op α ε → Bool
  | .cancel => true
  | .cancelWith _ => true
  | .setResult _ => true
  | .setResultIfPending _ => true
  | .setException _ => true
  | .setExceptionIfPending _ => true
  | _ => false

/-- The user calls of a history which concern the protected future. -/
def innerOps : List (Op α ε) → List (Future.Op α ε)
  | [] => []
  | .inner op :: ops => op :: innerOps ops
  | _ :: ops => innerOps ops

/-- The loop has run all handed over callbacks of the protected future. -/
def Settled (s : Sys α ε) : Prop := s.inner.ready.length ≤ s.innerRan

/-- What `get_result` of a future shows. -/
def shows (f : Fut α ε) : Out α ε := (f.step .getResult).2

/-! ## Lemmas -/

/-- Agreement of two futures up to the chaining callback. -/
def Same (f g : Fut α ε) : Prop :=
  f.state = g.state ∧ f.result = g.result ∧ f.running = g.running ∧ f.callbacks.filter (· ≠ 0) = g.callbacks.filter (· ≠ 0) ∧
  f.ready.filter (· ≠ 0) = g.ready.filter (· ≠ 0)

theorem filter_comm (l : List Nat) (p q : Nat → Bool) : (l.filter p).filter q = (l.filter q).filter p := by
  rw [List.filter_filter, List.filter_filter]
  congr 1; funext x; exact Bool.and_comm _ _

theorem length_filter_ne (l : List Nat) (c : Nat) (hc : c ≠ 0) :
    (l.filter (· = c)).length = ((l.filter (· ≠ 0)).filter (· = c)).length := by
  rw [filter_comm, List.filter_filter]
  congr 1
  apply List.filter_congr
  intro x _
  by_cases hx : x = c <;> simp [hx, hc]

theorem step_same (f g : Fut α ε) (h : Same f g) (op : Future.Op α ε) (hop : UserOp op) :
    Same (f.step op).1 (g.step op).1 ∧ (f.step op).2 = (g.step op).2 := by
  obtain ⟨st, result, cbs, run, ready⟩ := f
  obtain ⟨st', result', cbs', run', ready'⟩ := g
  obtain ⟨h1, h2, h3, h4, h5⟩ := h
  simp only at h1 h2 h3 h4 h5
  subst h1; subst h2; subst h3
  cases op
  case removeDoneCallback c =>
    simp only [Fut.step, Same, true_and]
    refine ⟨⟨?_, h5⟩, ?_⟩
    · rw [filter_comm, h4, filter_comm]
    · rw [length_filter_ne cbs c hop, length_filter_ne cbs' c hop, h4]
  case setRunning b => exact ⟨⟨rfl, rfl, rfl, h4, h5⟩, rfl⟩
  case addDoneCallback c =>
    simp only [UserOp] at hop
    cases hd : st.done <;> cases run <;> simp [Fut.step, Same, hd, hop] <;> simp_all
  all_goals
    try (rename_i a; cases a)
  all_goals
    cases hd : st.done <;> cases run <;> simp only [Fut.step, Fut.schedule, hd]
  all_goals (repeat' split) <;> simp_all [Same]

theorem same_erase (f g : Fut α ε) (h : Same f g) : Same { f with callbacks := f.callbacks.erase 0 } g := by
  obtain ⟨h1, h2, h3, h4, h5⟩ := h
  refine ⟨h1, h2, h3, ?_, h5⟩
  rw [← h4]
  simp only
  generalize f.callbacks = l
  induction l with
  | nil => rfl
  | cons x l ih =>
    by_cases hx : x = 0
    · subst hx; simp
    · simp [hx]; simpa using ih

theorem chain_inner (s : Sys α ε) : s.chain.inner = s.inner := by
  unfold Sys.chain; simp only; split <;> rfl

/-- C14. Nothing that happens to the future returned by `shield` (cancelling it, completing it, callbacks) has any effect on the
protected future: its outcome and the callbacks users registered on it are the same as if only the calls on the protected
future itself had been made on an unshielded future. -/
theorem C14_outer_never_affects_inner (protected_ : Fut α ε) (s : Sys α ε) (hs : shield protected_ = some s)
    (ops : List (Op α ε)) (hops : ∀ op ∈ ops, Allowed op) :
    let alone := (protected_.run (innerOps ops)).1
    let shielded := (s.run ops).inner
    shows shielded = shows alone ∧ shielded.state = alone.state ∧
      shielded.callbacks.filter (· ≠ 0) = alone.callbacks.filter (· ≠ 0) ∧
      shielded.ready.filter (· ≠ 0) = alone.ready.filter (· ≠ 0) := by
  have h0 : Same s.inner protected_ := by
    unfold shield at hs
    split at hs
    · cases hs
    · cases hs; exact ⟨rfl, rfl, rfl, by simp, rfl⟩
  have gen : ∀ (ops : List (Op α ε)) (s : Sys α ε) (g : Fut α ε), (∀ op ∈ ops, Allowed op) → Same s.inner g →
      Same (s.run ops).inner (g.run (innerOps ops)).1 := by
    intro ops
    induction ops with
    | nil => intro s g _ h; exact h
    | cons op ops ih =>
      intro s g ha h
      have ha' := ha op (by simp)
      have har : ∀ op ∈ ops, Allowed op := fun o ho => ha o (by simp [ho])
      cases op with
      | inner op => exact ih (s.step (.inner op)) (g.step op).1 har (step_same _ _ h op ha').1
      | outer op => exact ih (s.step (.outer op)) g har h
      | runInner =>
        refine ih (s.step .runInner) g har ?_
        simp only [Sys.step]
        split
        · exact h
        · split
          · rw [chain_inner]; exact h
          · exact h
      | runOuter =>
        refine ih (s.step .runOuter) g har ?_
        simp only [Sys.step]
        split
        · exact h
        · split
          · unfold Sys.unchain
            split
            · exact same_erase _ _ h
            · exact h
          · exact h
  have h := gen ops s protected_ hops h0
  exact ⟨(step_same _ _ h .getResult trivial).2, h.1, h.2.2.2.1, h.2.2.2.2⟩

/-! ### the outer future -/

/-- Invariant of the outer future: pending, or done; with the shape of a finished future. -/
def OuterOk (f : Fut α ε) : Prop := ∃ o, Rel f o ∧ Fresh f

theorem rel_inj (f : Fut α ε) (o o' : Option (Outcome α ε)) (h : Rel f o) (h' : Rel f o') : o = o' := by
  unfold Rel at h h'
  rcases o with _ | (v | e | _ | e) <;> rcases o' with _ | (v' | e' | _ | e') <;> simp_all

theorem rel_done (f : Fut α ε) (o : Option (Outcome α ε)) (h : Rel f o) : f.state.done = o.isSome := by
  unfold Rel at h
  rcases o with _ | (v | e | _ | e) <;> simp_all [Flags.done]

/-- The part of the state which matters: outcomes of the two futures. -/
structure Inv (s : Sys α ε) (oi oo : Option (Outcome α ε)) : Prop where
  inner : Rel s.inner oi
  innerFresh : Fresh s.inner
  innerRun : s.inner.running = true
  innerLate : s.inner.state.done = true → s.inner.callbacks = []
  innerEarly : s.innerRan < s.inner.ready.length → s.inner.state.done = true
  outer : Rel s.outer oo
  outerFresh : Fresh s.outer
  outerEarly : s.outer.state.done = false → s.outer.ready = []
  live : oo = none → 0 ∈ s.inner.callbacks ∨ 0 ∈ s.inner.ready.drop s.innerRan

/-- Outcome of the protected future after an operation of the system. -/
def nextInner (oi : Option (Outcome α ε)) : Op α ε → Option (Outcome α ε)
  | .inner op => (cellStep oi op).1
  | _ => oi

theorem step_running (f : Fut α ε) (h : f.running = true) (op : Future.Op α ε) (hop : UserOp op) :
    (f.step op).1.running = true := by
  cases op
  case setRunning b => exact hop
  all_goals try (rename_i a; cases a)
  all_goals simp only [Fut.step, Fut.schedule, h]
  all_goals (repeat' split) <;> simp_all

theorem done_mono (f : Fut α ε) (op : Future.Op α ε) (h : f.state.done = true) : (f.step op).1.state.done = true := by
  obtain ⟨⟨r, ra, rr, cs, ca, de, si⟩, result, cbs, run, ready⟩ := f
  simp only [Flags.done] at h
  cases r <;> cases ra <;> cases ca <;> cases de <;> cases run <;> cases op
  all_goals try (rename_i a; cases a)
  all_goals simp_all [Fut.step, Flags.done]
  all_goals split <;> simp

theorem pending_ready_kept (f : Fut α ε) (op : Future.Op α ε) (h : (f.step op).1.state.done = false) :
    (f.step op).1.ready = f.ready := by
  have hnd : f.state.done = false := by
    cases hd' : f.state.done with
    | false => rfl
    | true => rw [done_mono _ op hd'] at h; cases h
  revert h
  obtain ⟨⟨r, ra, rr, cs, ca, de, si⟩, result, cbs, run, ready⟩ := f
  simp only [Flags.done, Bool.or_eq_false_iff] at hnd
  obtain ⟨⟨⟨rfl, rfl⟩, rfl⟩, rfl⟩ := hnd
  cases run <;> cases op
  all_goals try (rename_i a; cases a)
  all_goals simp [Fut.step, Fut.schedule, Flags.done]

/-- A user's call either leaves callbacks registered or hands them over. -/
theorem zero_kept (f : Fut α ε) (hrun : f.running = true) (op : Future.Op α ε) (hop : UserOp op) (n : Nat)
    (hn : n ≤ f.ready.length) (h : 0 ∈ f.callbacks ∨ 0 ∈ f.ready.drop n) :
    0 ∈ (f.step op).1.callbacks ∨ 0 ∈ (f.step op).1.ready.drop n := by
  obtain ⟨⟨r, ra, rr, cs, ca, de, si⟩, result, cbs, run, ready⟩ := f
  simp only at hrun h hn
  subst hrun
  have hz : n - ready.length = 0 := by omega
  cases op
  case addDoneCallback c =>
    cases hd : (Flags.mk r ra rr cs ca de si).done <;> simp [Fut.step, hd, List.drop_append] <;> simp_all
    all_goals rcases h with h | h <;> simp [h]
  case removeDoneCallback c =>
    simp only [UserOp] at hop
    simp [Fut.step]
    rcases h with h | h
    · left; exact ⟨h, fun hh => hop hh.symm⟩
    · right; exact h
  case setRunning b => exact h
  all_goals try (rename_i a; cases a)
  all_goals
    cases hd : (Flags.mk r ra rr cs ca de si).done <;> simp only [Fut.step, hd, Fut.schedule]
  all_goals (repeat' split) <;> simp_all [List.drop_append]
  all_goals rcases h with h | h <;> simp [h]

theorem prefix_len (f : Fut α ε) (op : Future.Op α ε) : f.ready.length ≤ (f.step op).1.ready.length :=
  (C12_ready_only_grows [op] f).length_le

/-- While the loop runs, no callback waits on a done future (kept by every user call). -/
theorem late_kept (f : Fut α ε) (hrun : f.running = true) (h : f.state.done = true → f.callbacks = []) (op : Future.Op α ε)
    (hop : UserOp op) : (f.step op).1.state.done = true → (f.step op).1.callbacks = [] := by
  obtain ⟨⟨r, ra, rr, cs, ca, de, si⟩, result, cbs, run, ready⟩ := f
  simp only at hrun h
  subst hrun
  simp only [Flags.done] at h
  cases op
  case removeDoneCallback c => intro hd; simp [Fut.step, Flags.done] at hd ⊢; simp_all
  case setRunning b => exact h
  all_goals cases r <;> cases ra <;> cases ca <;> cases de
  all_goals try (rename_i a; cases a)
  all_goals simp_all [Fut.step, Fut.schedule, Flags.done]
  all_goals (repeat' split) <;> simp_all

/-- The outer outcome after an operation: user calls act on it like on any future, and a run chaining callback may copy the
outcome of the protected future into it if it is pending. -/
theorem step_inv (s : Sys α ε) (oi oo : Option (Outcome α ε)) (h : Inv s oi oo) (hn : s.innerRan ≤ s.inner.ready.length)
    (op : Op α ε) (hop : Allowed op) :
    ∃ oo', Inv (s.step op) (nextInner oi op) oo' ∧ (s.step op).innerRan ≤ (s.step op).inner.ready.length ∧
      (match op with
       | .outer op => oo' = (cellStep oo op).1
       | .runInner => oo' = oo ∨ (oo = none ∧ oo' = oi ∧ oi.isSome)
       | _ => oo' = oo) := by
  obtain ⟨i1, i2, i3, i4, i5, i6, i7, i8, i9⟩ := h
  cases op with
  | inner op =>
    obtain ⟨a, b, _⟩ := step_refines s.inner oi i1 i2 op
    have hlen := prefix_len s.inner op
    refine ⟨oo, ⟨a, b, step_running _ i3 op hop, late_kept _ i3 i4 op hop, ?_, i6, i7, i8, ?_⟩, ?_, rfl⟩
    · intro hlt
      cases hd : (s.inner.step op).1.state.done with
      | true => exact hd
      | false =>
        exfalso
        simp only [Sys.step] at hlt
        rw [pending_ready_kept _ op hd] at hlt
        rw [done_mono _ op (i5 hlt)] at hd
        cases hd
    · intro ho; exact zero_kept s.inner i3 op hop _ hn (i9 ho)
    · simp only [Sys.step]; omega
  | outer op =>
    obtain ⟨a, b, _⟩ := step_refines s.outer oo i6 i7 op
    refine ⟨(cellStep oo op).1, ⟨i1, i2, i3, i4, i5, a, b, step_pending_ready s.outer i8 op, ?_⟩, hn, rfl⟩
    intro ho
    apply i9
    cases oo with
    | none => rfl
    | some o => exfalso; cases op <;> simp [cellStep] at ho
  | runInner =>
    simp only [Sys.step]
    split
    · exact ⟨oo, ⟨i1, i2, i3, i4, i5, i6, i7, i8, i9⟩, hn, Or.inl rfl⟩
    · rename_i c hc
      have hlt : s.innerRan < s.inner.ready.length := by
        rcases Nat.lt_or_ge s.innerRan s.inner.ready.length with h | h
        · exact h
        · rw [List.getElem?_eq_none h] at hc; cases hc
      have hdone := i5 hlt
      have hsome : oi.isSome := by rw [← rel_done _ _ i1]; exact hdone
      have hcb := i4 hdone
      split
      · -- the chaining callback
        unfold Sys.chain
        simp only
        split
        · rename_i hod
          refine ⟨oo, ⟨i1, i2, i3, i4, fun _ => hdone, i6, i7, i8, ?_⟩, hlt, Or.inl rfl⟩
          intro ho
          rw [rel_done _ _ i6, ho] at hod
          simp at hod
        · rename_i hod
          have hoo : oo = none := by
            have := rel_done _ _ i6
            cases oo with
            | none => rfl
            | some o => simp [this] at hod
          subst hoo
          refine ⟨oi, ⟨i1, i2, i3, i4, fun _ => hdone, ?_, ?_, ?_, ?_⟩, hlt, Or.inr ⟨rfl, rfl, hsome⟩⟩
          · unfold Rel at i1 i6 ⊢
            rcases oi with _ | (v | e | _ | e)
            · simp at hsome
            all_goals cases hr : s.outer.running <;> simp_all [Fut.schedule, orFlags]
          · intro hd
            exfalso
            have : (orFlags s.outer.state s.inner.state).done = true := by
              simp only [Flags.done, orFlags] at hdone ⊢
              simp only [Bool.or_eq_true] at hdone ⊢
              rcases hdone with ((h | h) | h) | h <;> simp [h]
            cases hr : s.outer.running <;> simp [Fut.schedule, hr, this] at hd
          · intro hd
            exfalso
            have : (orFlags s.outer.state s.inner.state).done = true := by
              simp only [Flags.done, orFlags] at hdone ⊢
              simp only [Bool.or_eq_true] at hdone ⊢
              rcases hdone with ((h | h) | h) | h <;> simp [h]
            cases hr : s.outer.running <;> simp [Fut.schedule, hr, this] at hd
          · intro ho; rw [ho] at hsome; simp at hsome
      · rename_i hc0
        refine ⟨oo, ⟨i1, i2, i3, i4, fun _ => hdone, i6, i7, i8, ?_⟩, hlt, Or.inl rfl⟩
        intro ho
        rcases i9 ho with h | h
        · exact Or.inl h
        · right
          have : s.inner.ready.drop s.innerRan = c :: s.inner.ready.drop (s.innerRan + 1) := by
            rw [List.drop_eq_getElem_cons hlt]
            congr 1
            rw [List.getElem?_eq_getElem hlt] at hc
            exact Option.some.inj hc
          rw [this] at h
          rcases List.mem_cons.mp h with h | h
          · exact absurd h.symm hc0
          · exact h
  | runOuter =>
    simp only [Sys.step]
    split
    · exact ⟨oo, ⟨i1, i2, i3, i4, i5, i6, i7, i8, i9⟩, hn, rfl⟩
    · rename_i c hc
      have hod : s.outer.state.done = true := by
        cases hd : s.outer.state.done with
        | true => rfl
        | false => rw [i8 hd] at hc; simp at hc
      have hoo : oo ≠ none := by
        intro h; rw [rel_done _ _ i6, h] at hod; simp at hod
      split
      · unfold Sys.unchain
        split
        · refine ⟨oo, ⟨i1, i2, i3, ?_, i5, ?_, ?_, ?_, fun h => absurd h hoo⟩, hn, rfl⟩
          · intro hd; simp [i4 hd]
          · unfold Rel at i6 ⊢
            rcases oo with _ | (v | e | _ | e) <;> simp_all
          · intro hd; exact i7 (by simpa [Flags.done] using hd)
          · intro hd; exact i8 (by simpa [Flags.done] using hd)
        · exact ⟨oo, ⟨i1, i2, i3, i4, i5, i6, i7, i8, i9⟩, hn, rfl⟩
      · exact ⟨oo, ⟨i1, i2, i3, i4, i5, i6, i7, i8, i9⟩, hn, rfl⟩

/-- What a future shows, in terms of its outcome. -/
theorem shows_rel (f : Fut α ε) (o : Option (Outcome α ε)) (h : Rel f o) (hf : Fresh f) :
    shows f = (cellStep o .getResult).2 := (step_refines f o h hf .getResult).2.2 rfl

theorem shield_inv (before : List (Future.Op α ε)) (hb : ∀ op ∈ before, UserOp op) (s : Sys α ε)
    (hs : shield (({} : Fut α ε).run before).1 = some s) :
    ∃ oi, Inv s oi none ∧ s.innerRan ≤ s.inner.ready.length := by
  obtain ⟨a, b, _⟩ := run_refines before ({} : Fut α ε) none rel_init.1 rel_init.2
  unfold shield at hs
  split at hs
  · cases hs
  · rename_i hd
    cases hs
    refine ⟨_, ⟨a, b, ?_, fun h => absurd h hd, ?_, ?_, ?_, fun _ => rfl, fun _ => Or.inl (by simp)⟩, by simp⟩
    · have gen : ∀ (ops : List (Future.Op α ε)) (f : Fut α ε), (∀ op ∈ ops, UserOp op) → f.running = true →
          (f.run ops).1.running = true := by
        intro ops
        induction ops with
        | nil => intro f _ h; exact h
        | cons op ops ih =>
          intro f hb h
          exact ih _ (fun o ho => hb o (by simp [ho])) (step_running f h op (hb op (by simp)))
      exact gen before {} hb rfl
    · simp
    · exact ⟨rfl, rfl, rfl, rfl⟩
    · exact fun _ => rfl

theorem run_invs (ops : List (Op α ε)) : ∀ (s : Sys α ε) (oi oo : Option (Outcome α ε)), Inv s oi oo →
    s.innerRan ≤ s.inner.ready.length → (∀ op ∈ ops, Allowed op) →
    ∃ oi' oo', Inv (s.run ops) oi' oo' ∧ (s.run ops).innerRan ≤ (s.run ops).inner.ready.length ∧
      (oo.isSome → oo' = oo) ∧ (oi.isSome → oi' = oi) ∧
      ((∀ op, Op.outer op ∈ ops → Completes op = false) → oo' = oo ∨ (oo' = oi' ∧ oi'.isSome)) := by
  induction ops with
  | nil => intro s oi oo h hn _; exact ⟨oi, oo, h, hn, fun _ => rfl, fun _ => rfl, fun _ => Or.inl rfl⟩
  | cons op ops ih =>
    intro s oi oo h hn ha
    obtain ⟨oo1, h1, hn1, ht⟩ := step_inv s oi oo h hn op (ha op (by simp))
    obtain ⟨oi', oo', h2, hn2, h3, h4, h5⟩ := ih (s.step op) _ oo1 h1 hn1 (fun o ho => ha o (by simp [ho]))
    have hso : oo.isSome → oo1 = oo := by
      intro hs
      cases op with
      | inner op => exact ht
      | outer op =>
        simp only at ht
        rw [ht]
        cases oo with
        | none => simp at hs
        | some o => cases op <;> simp [cellStep]
      | runInner =>
        rcases ht with h | h
        · exact h
        · rw [h.1] at hs; simp at hs
      | runOuter => exact ht
    have hsi : oi.isSome → nextInner oi op = oi := by
      intro hs
      cases op with
      | inner op =>
        cases oi with
        | none => simp at hs
        | some o => cases op <;> simp [cellStep, nextInner]
      | outer op => rfl
      | runInner => rfl
      | runOuter => rfl
    refine ⟨oi', oo', h2, hn2, ?_, ?_, ?_⟩
    · intro hs
      rw [← hso hs]
      exact h3 (by rw [hso hs]; exact hs)
    · intro hs
      have := hsi hs
      rw [this] at h4
      exact h4 hs
    · intro hc
      rcases h5 (fun o ho => hc o (by simp [ho])) with h | h
      · cases op with
        | inner op => left; rw [h]; exact ht
        | outer op =>
          left
          rw [h]
          simp only at ht
          rw [ht]
          have := hc op (by simp)
          cases op <;> simp [Completes] at this <;> simp [cellStep]
        | runInner =>
          rcases ht with ht | ⟨_, h7, h8⟩
          · left; rw [h]; exact ht
          · right
            have : oi' = oi := h4 h8
            rw [h, h7, this]
            exact ⟨rfl, h8⟩
        | runOuter => left; rw [h]; exact ht
      · exact Or.inr h

/-- C14. If nobody completes or cancels the outer future directly, it shows either nothing yet or exactly what the protected
future shows, in every history. -/
theorem C14_outer_mirrors (before : List (Future.Op α ε)) (hb : ∀ op ∈ before, UserOp op) (s : Sys α ε)
    (hs : shield (({} : Fut α ε).run before).1 = some s) (ops : List (Op α ε)) (ha : ∀ op ∈ ops, Allowed op)
    (hc : ∀ op, Op.outer op ∈ ops → Completes op = false) :
    shows (s.run ops).outer = .invalidState ∨ shows (s.run ops).outer = shows (s.run ops).inner := by
  obtain ⟨oi, h, hn⟩ := shield_inv before hb s hs
  obtain ⟨oi', oo', h2, _, _, _, h5⟩ := run_invs ops s oi none h hn ha
  rw [shows_rel _ _ h2.outer h2.outerFresh, shows_rel _ _ h2.inner h2.innerFresh]
  rcases h5 hc with h | h
  · left; rw [h]; rfl
  · right; rw [h.1]

/-- C14. Once the protected future is done and the loop ran its callbacks, the outer future is done; if nobody completed or
cancelled it directly it has exactly the outcome of the protected one. -/
theorem C14_outer_completes (before : List (Future.Op α ε)) (hb : ∀ op ∈ before, UserOp op) (s : Sys α ε)
    (hs : shield (({} : Fut α ε).run before).1 = some s) (ops : List (Op α ε)) (ha : ∀ op ∈ ops, Allowed op)
    (hd : shows (s.run ops).inner ≠ .invalidState) (hq : Settled (s.run ops)) :
    shows (s.run ops).outer ≠ .invalidState ∧
    ((∀ op, Op.outer op ∈ ops → Completes op = false) → shows (s.run ops).outer = shows (s.run ops).inner) := by
  obtain ⟨oi, h, hn⟩ := shield_inv before hb s hs
  obtain ⟨oi', oo', h2, _, _, _, h5⟩ := run_invs ops s oi none h hn ha
  rw [shows_rel _ _ h2.outer h2.outerFresh, shows_rel _ _ h2.inner h2.innerFresh] at *
  have hi : oi'.isSome := by
    cases oi' with
    | none => simp [cellStep] at hd
    | some o => rfl
  have ho : oo' ≠ none := by
    intro h
    rcases h2.live h with h | h
    · rw [h2.innerLate (by rw [rel_done _ _ h2.inner]; exact hi)] at h; simp at h
    · rw [List.drop_of_length_le hq] at h; simp at h
  refine ⟨?_, ?_⟩
  · rcases oo' with _ | (v | e | _ | e)
    · exact absurd rfl ho
    all_goals simp [cellStep]
  · intro hc
    rcases h5 hc with h | h
    · exact absurd h ho
    · rw [h.1]

/-- C14. An outcome of the outer future (for example its cancellation) is final: the protected future ending later does not
change it. -/
theorem C14_outer_final (before : List (Future.Op α ε)) (hb : ∀ op ∈ before, UserOp op) (s : Sys α ε)
    (hs : shield (({} : Fut α ε).run before).1 = some s) (ops more : List (Op α ε)) (ha : ∀ op ∈ ops ++ more, Allowed op)
    (hd : shows (s.run ops).outer ≠ .invalidState) :
    shows (s.run (ops ++ more)).outer = shows (s.run ops).outer := by
  obtain ⟨oi, h, hn⟩ := shield_inv before hb s hs
  obtain ⟨oi', oo', h2, hn2, _⟩ := run_invs ops s oi none h hn (fun o ho => ha o (by simp [ho]))
  obtain ⟨oi2, oo2, h3, _, h4, _⟩ := run_invs more _ oi' oo' h2 hn2 (fun o ho => ha o (by simp [ho]))
  have : (s.run ops).run more = s.run (ops ++ more) := by simp [Sys.run, List.foldl_append]
  rw [this] at h3
  rw [shows_rel _ _ h2.outer h2.outerFresh] at hd ⊢
  rw [shows_rel _ _ h3.outer h3.outerFresh]
  rw [h4]
  cases oo' with
  | none => simp [cellStep] at hd
  | some o => rfl

/-- Instance: shield a future with a user callback; complete it with 5, run the loop: outer shows 5. -/
example : ∃ s, shield (({} : Fut Nat Nat).run [.addDoneCallback 3]).1 = some s ∧
    shows (s.run [.inner (.setResult 5), .runInner, .runInner]).outer = .returned 5 ∧
    (s.run [.inner (.setResult 5), .runInner, .runInner]).inner.ready = [0, 3] :=
  ⟨_, rfl, by decide, by decide⟩

/-- Instance: outer cancelled first; the inner goes on. -/
example : ∃ s, shield ({} : Fut Nat Nat) = some s ∧
    shows (s.run [.outer .cancel, .runOuter, .inner (.setResult 5), .runInner]).outer = .raisedCancelled ∧
    shows (s.run [.outer .cancel, .runOuter, .inner (.setResult 5), .runInner]).inner = .returned 5 :=
  ⟨_, rfl, by decide, by decide⟩

/-- C14. Shielding something done gives back the awaitable itself; cancelling that reports `0` and changes no outcome. -/
theorem C14_done_unchanged (protected_ : Fut α ε) (h : shield protected_ = none) :
    (protected_.step .cancel).2 = .int 0 ∧ shows (protected_.step .cancel).1 = shows protected_ := by
  unfold shield at h
  split at h
  · rename_i hd
    obtain ⟨⟨r, ra, rr, cs, ca, de, si⟩, result, cbs, run, ready⟩ := protected_
    cases result <;> cases r <;> cases ra <;> cases ca <;> simp_all [Fut.step, shows]
  · cases h

end Verif.Shield
