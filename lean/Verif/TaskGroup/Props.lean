import Verif.TaskGroup.Model

/-! C23 and C57: what a `TaskGroup` knows about its futures, and when its waiters finish. -/
namespace Verif.TaskGroup

/-! ### specification -/

/-- The futures added in a history. -/
def added (ops : List Op) : List Nat := ops.filterMap fun | .add x => some x | _ => none

/-- The futures handed out of the group: by `pop_done`, or by a waiter that pops. -/
def handedOut (tr : List (Op × Out)) : List Nat :=
  tr.flatMap fun e => e.2.popped.toList ++ e.2.finished.filterMap fun
    | (_, h, .future x) => if h.pops then some x else none
    | _ => none

/-- Whether a future completed in a history. -/
def completed (ops : List Op) (x : Nat) : Prop := ∃ st, st ≠ .pending ∧ .complete x st ∈ ops

/-- No waiter of the popping kind is cancelled and still registered while a future's completion is processed. -/
def NoCancelledPop (s : State) : Op → Prop
  | .run | .add _ => ∀ p ∈ s.waiters, p.2.1.pops = true → p.2.2 = false
  | _ => True

/-- A condition holds before each operation of a history. -/
def Always (c : State → Op → Prop) (s : State) : List Op → Prop
  | [] => True
  | op :: ops => c s op ∧ Always c (s.step op).1 ops

/-! ### lemmas -/

theorem mem_insert {l : List Nat} {x y : Nat} : y ∈ insert l x ↔ y ∈ l ∨ y = x := by
  unfold insert
  split
  · rename_i h
    constructor
    · exact Or.inl
    · rintro (h' | rfl)
      · exact h'
      · exact h
  · simp

theorem nodup_insert {l : List Nat} {x : Nat} (h : l.Nodup) : (insert l x).Nodup := by
  unfold insert
  split
  · exact h
  · rename_i hn
    rw [List.nodup_append]
    refine ⟨h, by simp, ?_⟩
    intro a ha b hb
    simp at hb; subst hb
    exact fun e => hn (e ▸ ha)

structure Inv (s : State) : Prop where
  pnd : s.pending.Nodup
  dnd : s.done.Nodup
  /-- `done` holds completed futures only -/
  dst : ∀ x ∈ s.done, s.status x ≠ .pending
  /-- a completed future in `pending` has its callback scheduled -/
  pst : ∀ x ∈ s.pending, s.status x ≠ .pending → .waited x ∈ s.ready
  /-- a future that is not completed has the callback registered -/
  preg : ∀ x ∈ s.pending, s.status x = .pending → 0 < s.registered x
  /-- scheduled callbacks are of completed futures -/
  rst : ∀ x, .waited x ∈ s.ready → s.status x ≠ .pending
  disj : ∀ x ∈ s.pending, x ∉ s.done
  /-- waiters that wait for nothing pending any more have finished -/
  idle : s.pending = [] → ∀ p ∈ s.waiters, p.2.1 = .next ∨ ∃ d r, p.2.1 = .firstN d r

theorem inv_init : Inv {} := by constructor <;> simp

theorem sendAll_evs (x : Nat) (st : Status) (b : Bool) (l : List (Nat × Handler × Bool)) :
    ∀ y, .waited y ∉ (sendAll x st b l).2.2.2 := by
  induction l with
  | nil => intro y; simp [sendAll]
  | cons p l ih =>
    obtain ⟨w, h, c⟩ := p
    intro y
    simp only [sendAll]
    split
    · exact ih y
    · split
      · exact ih y
      · simp only [List.mem_cons]; rintro (h | h)
        · cases h
        · exact ih y h

theorem send_idle (h h' : Handler) (x : Nat) (st : Status) (e : h.send x st true = .inr h') : ∃ d r, h' = .firstN d r := by
  cases h <;> simp only [Handler.send] at e
  all_goals first
    | (cases e; done)
    | (split at e <;> simp at e; done)
    | (split at e
       · cases e
       · simp only [Sum.inr.injEq] at e; exact ⟨_, _, e.symm⟩)
    | skip

theorem sendAll_idle (x : Nat) (st : Status) (l : List (Nat × Handler × Bool)) :
    ∀ p ∈ (sendAll x st true l).1, ∃ d r, p.2.1 = .firstN d r := by
  induction l with
  | nil => simp [sendAll]
  | cons q l ih =>
    obtain ⟨w, h, c⟩ := q
    simp only [sendAll]
    split
    · rename_i h' e
      intro p hp
      rcases List.mem_cons.mp hp with rfl | hp
      · exact send_idle h h' x st e
      · exact ih p hp
    · split
      · exact ih
      · exact ih

theorem waited_inv (s : State) (h : Inv s) (x : Nat) (hx : s.status x ≠ .pending) (s0 : State)
    (h0 : s0.status = s.status ∧ s0.registered = s.registered ∧ s0.pending = s.pending ∧ s0.done = s.done ∧ s0.waiters = s.waiters ∧
      (∀ y, y ≠ x → .waited y ∈ s.ready → .waited y ∈ s0.ready) ∧ (∀ y, .waited y ∈ s0.ready → .waited y ∈ s.ready)) :
    Inv (s0.waited x).1 := by
  obtain ⟨e1, e2, e3, e4, e5, e6, e7⟩ := h0
  unfold State.waited
  simp only
  have evs := sendAll_evs x (s0.status x) (decide (s0.pending.filter (· ≠ x) = [])) s0.waiters
  refine ⟨?_, ?_, ?_, ?_, ?_, ?_, ?_, ?_⟩
  · simp only; rw [e3]; exact h.pnd.filter _
  · simp only; rw [e4]; split
    · exact nodup_insert h.dnd
    · exact h.dnd
  · intro y hy
    simp only at hy ⊢
    rw [e1]
    split at hy
    · rcases mem_insert.mp hy with hy | rfl
      · exact h.dst y (e4 ▸ hy)
      · exact hx
    · exact h.dst y (e4 ▸ hy)
  · intro y hy hst
    simp only [e3, e1, List.mem_filter, decide_eq_true_eq] at hy hst ⊢
    exact List.mem_append_left _ (e6 y hy.2 (h.pst y hy.1 hst))
  · intro y hy hst
    simp only [e3, e1, e2, List.mem_filter, decide_eq_true_eq] at hy hst ⊢
    exact h.preg y hy.1 hst
  · intro y hy
    simp only at hy ⊢
    rw [e1]
    rcases List.mem_append.mp hy with hy | hy
    · exact h.rst y (e7 y hy)
    · exact absurd hy (evs y)
  · intro y hy
    simp only [e3, List.mem_filter, decide_eq_true_eq] at hy ⊢
    rw [e4]
    split
    · rw [mem_insert]
      rintro (h' | h')
      · exact h.disj y hy.1 h'
      · exact hy.2 h'
    · exact h.disj y hy.1
  · intro hp p hp'
    simp only at hp hp'
    rw [hp] at hp'
    exact Or.inr (sendAll_idle _ _ _ p (by simpa using hp'))

theorem start_idle (s : State) (h h' : Handler) (c : Nat) (e : s.start h c = .inr h') (hp : s.pending = []) :
    h' = .next ∨ ∃ d r, h' = .firstN d r := by
  cases h <;> simp only [State.start, hp] at e
  case next => simp only [Sum.inr.injEq] at e; exact Or.inl e.symm
  case firstN d r =>
    split at e
    · cases e
    · simp only [Sum.inr.injEq] at e; exact Or.inr ⟨_, _, e.symm⟩
  case all => simp at e
  all_goals (split at e <;> simp at e)

theorem start_done (s : State) (h : Handler) (c : Nat) (r : Res) (d : List Nat) (e : s.start h c = .inl (r, d)) :
    d = s.done ∨ (d = s.done.erase c ∧ c ∈ s.done ∧ h.pops = true ∧ r = .future c) := by
  cases h <;> simp only [State.start] at e
  case next => cases e
  case firstN => split at e <;> simp at e; exact Or.inl e.2.symm
  case all => split at e <;> simp at e; exact Or.inl e.2.symm
  case first | exception | exceptionOrCancellation =>
    split at e
    · simp at e; exact Or.inl e.2.symm
    · split at e <;> simp at e; exact Or.inl e.2.symm
  case firstPop =>
    split at e
    · rename_i hm; simp at e; exact Or.inr ⟨e.2.symm, hm, rfl, e.1.symm⟩
    · split at e <;> simp at e; exact Or.inl e.2.symm
  case exceptionPop | exceptionOrCancellationPop =>
    split at e
    · rename_i hm; simp at e; exact Or.inr ⟨e.2.symm, hm.1, rfl, e.1.symm⟩
    · split at e <;> simp at e; exact Or.inl e.2.symm

theorem step_inv (s : State) (h : Inv s) (op : Op) : Inv (s.step op).1 := by
  have h0 := h
  obtain ⟨pnd, dnd, dst, pst, preg, rst, disj, idle⟩ := h
  cases op with
  | add x =>
    simp only [State.step, State.add]
    split
    · rename_i hs
      refine ⟨nodup_insert pnd, dnd, dst, ?_, ?_, rst, ?_, ?_⟩
      · intro y hy hst
        rcases mem_insert.mp hy with hy | rfl
        · exact pst y hy hst
        · exact absurd hs hst
      · intro y hy hst
        simp only
        split
        · omega
        · rename_i hne
          rcases mem_insert.mp hy with hy | rfl
          · exact preg y hy hst
          · exact absurd rfl hne
      · intro y hy
        rcases mem_insert.mp hy with hy | rfl
        · exact disj y hy
        · exact fun hd => dst y hd hs
      · intro hp
        have : x ∈ insert s.pending x := mem_insert.mpr (Or.inr rfl)
        simp only at hp
        rw [hp] at this; simp at this
    · rename_i hs
      exact waited_inv s h0 x hs s ⟨rfl, rfl, rfl, rfl, rfl, fun _ _ h => h, fun _ h => h⟩
  | complete x st =>
    simp only [State.step, State.complete]
    split
    · rename_i hs
      refine ⟨pnd, dnd, ?_, ?_, ?_, ?_, disj, idle⟩
      · intro y hy
        simp only
        split
        · exact hs.2
        · exact dst y hy
      · intro y hy hst
        simp only at hst ⊢
        split at hst
        · rename_i e
          subst e
          apply List.mem_append_right
          rw [List.mem_replicate]
          exact ⟨by have := preg y hy hs.1; omega, rfl⟩
        · exact List.mem_append_left _ (pst y hy hst)
      · intro y hy hst
        simp only at hst ⊢
        split at hst
        · exact absurd hst hs.2
        · rename_i hne
          rw [if_neg hne]; exact preg y hy hst
      · intro y hy
        simp only at hy ⊢
        rcases List.mem_append.mp hy with hy | hy
        · split
          · exact hs.2
          · exact rst y hy
        · have := (List.mem_replicate.mp hy).2
          simp only [Ev.waited.injEq] at this
          rw [if_pos this]; exact hs.2
    · exact h0
  | popDone c =>
    simp only [State.step]
    split
    · exact ⟨pnd, dnd.erase _, fun x hx => dst x (List.mem_of_mem_erase hx), pst, preg, rst,
        fun x hx hd => disj x hx (List.mem_of_mem_erase hd), idle⟩
    · exact h0
  | wait hd c =>
    simp only [State.step, State.wait]
    split
    · rename_i r d e
      rcases start_done s hd c r d e with rfl | ⟨rfl, _⟩
      · exact ⟨pnd, dnd, dst, pst, preg, rst, disj, idle⟩
      · exact ⟨pnd, dnd.erase _, fun x hx => dst x (List.mem_of_mem_erase hx), pst, preg, rst,
          fun x hx hd => disj x hx (List.mem_of_mem_erase hd), idle⟩
    · rename_i h' e
      refine ⟨pnd, dnd, dst, pst, preg, rst, disj, ?_⟩
      intro hp p hpm
      rcases List.mem_append.mp hpm with hpm | hpm
      · exact idle hp p hpm
      · simp at hpm; subst hpm
        exact start_idle s hd h' c e hp
  | cancelWaiter w =>
    simp only [State.step]
    split
    · refine ⟨pnd, dnd, dst, fun y hy hst => List.mem_append_left _ (pst y hy hst), preg, ?_, disj, ?_⟩
      · intro y hy
        rcases List.mem_append.mp hy with hy | hy
        · exact rst y hy
        · simp at hy
      · intro hp p hpm
        obtain ⟨q, hq, rfl⟩ := List.mem_map.mp hpm
        have := idle hp q hq
        split <;> exact this
    · exact h0
  | run =>
    simp only [State.step]
    split
    · exact h0
    · rename_i x ready hr
      refine waited_inv s h0 x (rst x (by rw [hr]; simp)) _ ⟨rfl, rfl, rfl, rfl, rfl, ?_, ?_⟩
      · intro y hy hm
        rw [hr] at hm
        rcases List.mem_cons.mp hm with hm | hm
        · simp only [Ev.waited.injEq] at hm; exact absurd hm hy
        · exact hm
      · intro y hm; rw [hr]; exact List.mem_cons_of_mem _ hm
    · rename_i w ready hr
      refine ⟨pnd, dnd, dst, ?_, preg, ?_, disj, ?_⟩
      · intro y hy hst
        have := pst y hy hst
        rw [hr] at this
        rcases List.mem_cons.mp this with h | h
        · cases h
        · exact h
      · intro y hy; exact rst y (by rw [hr]; exact List.mem_cons_of_mem _ hy)
      · intro hp p hpm; exact idle hp p (List.mem_filter.mp hpm).1

theorem runAll_inv (ops : List Op) : ∀ s : State, Inv s → Inv (s.runAll ops) := by
  induction ops with
  | nil => intro s h; exact h
  | cons op ops ih => intro s h; exact ih _ (step_inv s h op)

theorem waited_status (s : State) (x : Nat) : (s.waited x).1.status = s.status := rfl

theorem step_status (s : State) (op : Op) (x : Nat) : (s.step op).1.status x ≠ .pending ↔
    s.status x ≠ .pending ∨ ∃ st, st ≠ .pending ∧ op = .complete x st := by
  cases op with
  | add y =>
    simp only [State.step, State.add]
    split <;> simp [waited_status]
  | complete y st =>
    simp only [State.step, State.complete]
    by_cases hst : st = .pending
    · subst hst; simp
    · by_cases hy : s.status y = .pending
      · simp only [hy, hst, ne_eq, not_false_eq_true, and_self, if_true]
        by_cases hxy : x = y
        · subst hxy; simp [hy, hst]
        · have : ¬ y = x := fun e => hxy e.symm
          simp [hxy, this]
      · simp only [hy, ne_eq, false_and, if_false]
        constructor
        · exact Or.inl
        · rintro (h | ⟨st', _, e⟩)
          · exact h
          · simp only [Op.complete.injEq] at e
            rw [← e.1]; exact hy
  | popDone c => simp only [State.step]; split <;> simp
  | wait h c => simp only [State.step, State.wait]; split <;> simp
  | cancelWaiter w => simp only [State.step]; split <;> simp
  | run => simp only [State.step]; split <;> simp [waited_status]

theorem runAll_status (ops : List Op) (x : Nat) : ∀ s : State, (s.runAll ops).status x ≠ .pending ↔
    s.status x ≠ .pending ∨ completed ops x := by
  induction ops with
  | nil => intro s; simp [State.runAll, completed]
  | cons op ops ih =>
    intro s
    have := ih (s.step op).1
    show ((s.step op).1.runAll ops).status x ≠ .pending ↔ _
    rw [this, step_status]
    unfold completed
    constructor
    · rintro ((h | ⟨st, h, rfl⟩) | ⟨st, h1, h2⟩)
      · exact Or.inl h
      · exact Or.inr ⟨st, h, by simp⟩
      · exact Or.inr ⟨st, h1, List.mem_cons_of_mem _ h2⟩
    · rintro (h | ⟨st, h1, h2⟩)
      · exact Or.inl (Or.inl h)
      · rcases List.mem_cons.mp h2 with h2 | h2
        · exact Or.inl (Or.inr ⟨st, h1, h2.symm⟩)
        · exact Or.inr ⟨st, h1, h2⟩

/-! ### C23 -/

/-- C23. No future is ever reported both as pending and as done, and no set holds one twice. -/
theorem C23_never_both (ops : List Op) (x : Nat) (hp : x ∈ (({} : State).runAll ops).pending) :
    x ∉ (({} : State).runAll ops).done := (runAll_inv ops _ inv_init).disj x hp

/-- C23. `done` holds completed futures only; and once the scheduled callbacks ran, `pending` holds uncompleted ones only. -/
theorem C23_done_iff_completed (ops : List Op) (x : Nat) :
    (x ∈ (({} : State).runAll ops).done → completed ops x) ∧
    ((({} : State).runAll ops).ready = [] → x ∈ (({} : State).runAll ops).pending → ¬completed ops x) := by
  have h := runAll_inv ops _ inv_init
  have hs := runAll_status ops x {}
  simp only [ne_eq, not_true_eq_false, false_or] at hs
  refine ⟨fun hd => hs.mp (h.dst x hd), fun hr hp hc => ?_⟩
  have := h.pst x hp (hs.mpr hc)
  rw [hr] at this; simp at this

theorem send_add (h : Handler) (x : Nat) (st : Status) (b a : Bool) (r : Res) (e : h.send x st b = .inl (a, r)) :
    a = true ∨ (h.pops = true ∧ r = .future x) := by
  cases h <;> simp only [Handler.send] at e
  case next | first => simp at e; exact Or.inl e.1
  case firstPop => simp at e; exact Or.inr ⟨rfl, e.2.symm⟩
  case firstN | all => split at e <;> simp at e; exact Or.inl e.1
  case exception | exceptionOrCancellation =>
    split at e
    · simp at e; exact Or.inl e.1
    · split at e <;> simp at e; exact Or.inl e.1
  case exceptionPop | exceptionOrCancellationPop =>
    split at e
    · simp at e; exact Or.inr ⟨rfl, e.2.symm⟩
    · split at e <;> simp at e; exact Or.inl e.1

theorem sendAll_add (x : Nat) (st : Status) (b : Bool) (l : List (Nat × Handler × Bool))
    (hl : ∀ p ∈ l, p.2.1.pops = true → p.2.2 = false) (ha : (sendAll x st b l).2.2.1 = false) :
    ∃ w h, (w, h, .future x) ∈ (sendAll x st b l).2.1 ∧ h.pops = true := by
  induction l with
  | nil => simp [sendAll] at ha
  | cons p l ih =>
    obtain ⟨w, h, c⟩ := p
    have ih := ih (fun p hp => hl p (List.mem_cons_of_mem _ hp))
    have hc := hl (w, h, c) (by simp)
    simp only [sendAll] at ha ⊢
    cases e : h.send x st b with
    | inr h' => rw [e] at ha; exact ih ha
    | inl v =>
      obtain ⟨a, r⟩ := v
      rw [e] at ha
      simp only at ha ⊢
      rcases send_add h x st b a r e with rfl | ⟨hp, rfl⟩
      · by_cases hcc : c = true
        · rw [if_pos hcc] at ha ⊢
          exact ih (by simpa using ha)
        · rw [if_neg hcc] at ha ⊢
          obtain ⟨w', h', hm, hp⟩ := ih (by simpa using ha)
          exact ⟨w', h', List.mem_cons_of_mem _ hm, hp⟩
      · have hcc : c = false := hc hp
        subst hcc
        exact ⟨w, h, by simp, hp⟩

/-- A future is somewhere: pending, done, or handed out. -/
def Accounted (s : State) (tr : List (Op × Out)) (x : Nat) : Prop := x ∈ s.pending ∨ x ∈ s.done ∨ x ∈ handedOut tr

theorem handedOut_append (a b : List (Op × Out)) : handedOut (a ++ b) = handedOut a ++ handedOut b := by
  simp [handedOut]

theorem waited_accounted (s : State) (x y : Nat) (hl : ∀ p ∈ s.waiters, p.2.1.pops = true → p.2.2 = false)
    (h : y ∈ s.pending ∨ y ∈ s.done ∨ y = x) (op : Op) :
    y ∈ (s.waited x).1.pending ∨ y ∈ (s.waited x).1.done ∨ y ∈ handedOut [(op, (s.waited x).2)] := by
  by_cases hyx : y = x
  · subst hyx
    unfold State.waited
    simp only
    cases ha : (sendAll y (s.status y) (decide (s.pending.filter (· ≠ y) = [])) s.waiters).2.2.1 with
    | true => right; left; simp only [if_true]; exact mem_insert.mpr (Or.inr rfl)
    | false =>
      right; right
      obtain ⟨w, h', hm, hp⟩ := sendAll_add _ _ _ _ hl ha
      simp only [handedOut, List.flatMap_cons, List.flatMap_nil, List.append_nil, Option.toList_none, List.nil_append]
      refine List.mem_filterMap.mpr ⟨_, hm, ?_⟩
      simp [hp]
  · unfold State.waited
    simp only
    rcases h with h | h | h
    · left; simp [h, hyx]
    · right; left
      split
      · exact mem_insert.mpr (Or.inl h)
      · exact h
    · exact absurd h hyx

theorem step_accounted (s : State) (tr : List (Op × Out)) (op : Op) (hc : NoCancelledPop s op) (y : Nat)
    (h : Accounted s tr y ∨ op = .add y) : Accounted (s.step op).1 (tr ++ [(op, (s.step op).2)]) y := by
  have mono : ∀ s' : State, (y ∈ s.pending → y ∈ s'.pending) → (y ∈ s.done → y ∈ s'.done) → ∀ tr', Accounted s tr y →
      Accounted s' (tr ++ tr') y := by
    intro s' h1 h2 tr' h
    rcases h with h | h | h
    · exact Or.inl (h1 h)
    · exact Or.inr (Or.inl (h2 h))
    · exact Or.inr (Or.inr (by rw [handedOut_append]; exact List.mem_append_left _ h))
  have viaWaited : ∀ (s' : State) (x : Nat), s'.pending = s.pending → s'.done = s.done → s'.waiters = s.waiters →
      (∀ p ∈ s.waiters, p.2.1.pops = true → p.2.2 = false) → (Accounted s tr y ∨ y = x) →
      Accounted (s'.waited x).1 (tr ++ [(op, (s'.waited x).2)]) y := by
    intro s' x e1 e2 e3 hl h
    by_cases hh : y ∈ handedOut tr
    · exact Or.inr (Or.inr (by rw [handedOut_append]; exact List.mem_append_left _ hh))
    · have h' : y ∈ s'.pending ∨ y ∈ s'.done ∨ y = x := by
        rcases h with (h | h | h) | h
        · exact Or.inl (e1 ▸ h)
        · exact Or.inr (Or.inl (e2 ▸ h))
        · exact absurd h hh
        · exact Or.inr (Or.inr h)
      rcases waited_accounted s' x y (by rw [e3]; exact hl) h' op with h | h | h
      · exact Or.inl h
      · exact Or.inr (Or.inl h)
      · exact Or.inr (Or.inr (by rw [handedOut_append]; exact List.mem_append_right _ h))
  cases op with
  | add x =>
    simp only [State.step, State.add]
    split
    · rcases h with h | h
      · refine mono _ ?_ ?_ _ h
        · exact fun h => mem_insert.mpr (Or.inl h)
        · exact fun h => h
      · simp only [Op.add.injEq] at h
        exact Or.inl (mem_insert.mpr (Or.inr h.symm))
    · exact viaWaited s x rfl rfl rfl hc (h.imp (fun h => h) (fun h => by simp only [Op.add.injEq] at h; exact h.symm))
  | complete x st =>
    have h : Accounted s tr y := h.elim (fun h => h) (fun h => by cases h)
    simp only [State.step, State.complete]
    split
    · exact mono _ (fun h => h) (fun h => h) _ h
    · exact mono _ (fun h => h) (fun h => h) _ h
  | popDone c =>
    have h : Accounted s tr y := h.elim (fun h => h) (fun h => by cases h)
    simp only [State.step]
    split
    · by_cases hyc : y = c
      · subst hyc
        exact Or.inr (Or.inr (by rw [handedOut_append]; apply List.mem_append_right; simp [handedOut]))
      · refine mono _ ?_ ?_ _ h
        · exact fun h => h
        · exact fun h => (List.mem_erase_of_ne hyc).mpr h
    · exact mono _ (fun h => h) (fun h => h) _ h
  | wait hd c =>
    have h : Accounted s tr y := h.elim (fun h => h) (fun h => by cases h)
    simp only [State.step, State.wait]
    split
    · rename_i r d e
      rcases start_done s hd c r d e with rfl | ⟨rfl, _, hp, rfl⟩
      · exact mono _ (fun h => h) (fun h => h) _ h
      · by_cases hyc : y = c
        · subst hyc
          exact Or.inr (Or.inr (by rw [handedOut_append]; apply List.mem_append_right; simp [handedOut, hp]))
        · refine mono _ ?_ ?_ _ h
          · exact fun h => h
          · exact fun h => (List.mem_erase_of_ne hyc).mpr h
    · exact mono _ (fun h => h) (fun h => h) _ h
  | cancelWaiter w =>
    have h : Accounted s tr y := h.elim (fun h => h) (fun h => by cases h)
    simp only [State.step]
    split
    · exact mono _ (fun h => h) (fun h => h) _ h
    · exact mono _ (fun h => h) (fun h => h) _ h
  | run =>
    have h : Accounted s tr y := h.elim (fun h => h) (fun h => by cases h)
    simp only [State.step]
    split
    · exact mono _ (fun h => h) (fun h => h) _ h
    · rename_i x ready hr
      exact viaWaited { s with ready := ready } x rfl rfl rfl hc (Or.inl h)
    · exact mono _ (fun h => h) (fun h => h) _ h

/-- C23, as long as no popping waiter is cancelled and still registered when a completion is processed: every future added is
pending, done, or was handed out. -/
theorem C23_never_neither_partial (ops : List Op) (hc : Always NoCancelledPop {} ops) (x : Nat) (hx : x ∈ added ops) :
    x ∈ (({} : State).runAll ops).pending ∨ x ∈ (({} : State).runAll ops).done ∨ x ∈ handedOut (trace {} ops) := by
  have gen : ∀ (ops : List Op) (s : State) (tr : List (Op × Out)), Always NoCancelledPop s ops →
      (Accounted s tr x ∨ x ∈ added ops) → Accounted (s.runAll ops) (tr ++ trace s ops) x := by
    intro ops
    induction ops with
    | nil =>
      intro s tr _ h
      rcases h with h | h
      · simpa [trace, State.runAll] using h
      · simp [added] at h
    | cons op ops ih =>
      intro s tr hc h
      have e : tr ++ trace s (op :: ops) = (tr ++ [(op, (s.step op).2)]) ++ trace (s.step op).1 ops := by simp [trace]
      rw [e]
      refine ih _ _ hc.2 ?_
      rcases h with h | h
      · exact Or.inl (step_accounted s tr op hc.1 x (Or.inl h))
      · simp only [added, List.filterMap_cons] at h
        split at h
        · exact Or.inr h
        · rename_i y hy
          rcases List.mem_cons.mp h with rfl | h
          · left
            apply step_accounted s tr op hc.1 x (Or.inr ?_)
            cases op <;> simp_all
          · exact Or.inr h
  have := gen ops {} [] hc (Or.inr hx)
  simpa [Accounted] using this

/-- Instance: a popping waiter takes a future, another future is done, a third one pending. -/
example : let ops : List Op := [.add 0, .add 1, .add 2, .wait .firstPop 0, .complete 0 .result, .complete 1 .raised, .run, .run, .run]
    Always NoCancelledPop {} ops ∧ (({} : State).runAll ops).pending = [2] ∧ (({} : State).runAll ops).done = [1] ∧
    handedOut (trace {} ops) = [0] := by
  refine ⟨?_, by decide, by decide, by decide⟩
  refine ⟨?_, ?_, ?_, trivial, trivial, trivial, ?_, ?_, ?_, trivial⟩ <;> intro p hp <;> revert p <;> decide

/-- C23 does not hold: a popping waiter is cancelled and a future completes before the waiter is unregistered. The future is
neither pending nor done, and nobody got it. -/
theorem C23_lost_violated :
    let ops : List Op := [.add 0, .wait .firstPop 0, .complete 0 .result, .cancelWaiter 0, .run, .run]
    0 ∈ added ops ∧ (({} : State).runAll ops).pending = [] ∧ (({} : State).runAll ops).done = [] ∧
    handedOut (trace {} ops) = [] ∧ (({} : State).runAll ops).ready = [] := by decide

/-- A future can be handed out twice: two popping waiters receive the same one. -/
theorem C23_handed_out_twice :
    let ops : List Op := [.add 0, .wait .firstPop 0, .wait .firstPop 0, .complete 0 .result, .run]
    handedOut (trace {} ops) = [0, 0] := by decide

/-! ### C57 -/

/-- C57, for all waiters but `wait_next` and `wait_first_n`: none is left unfinished when nothing is pending. -/
theorem C57_waiters_finish_partial (ops : List Op) (hp : (({} : State).runAll ops).pending = []) (p : Nat × Handler × Bool)
    (hm : p ∈ (({} : State).runAll ops).waiters) : p.2.1 = .next ∨ ∃ d r, p.2.1 = .firstN d r :=
  (runAll_inv ops _ inv_init).idle hp p hm

/-- C57. `wait_all` does not finish early: when it finishes, nothing is pending. -/
theorem C57_wait_all_not_early (s : State) (op : Op) (w : Nat) (r : Res) (h : (w, .all, r) ∈ (s.step op).2.finished) :
    (s.step op).1.pending = [] := by
  have hw : ∀ (s : State) (x : Nat), (w, .all, r) ∈ (s.waited x).2.finished → (s.waited x).1.pending = [] := by
    intro s x h
    unfold State.waited at h ⊢
    simp only at h ⊢
    refine Classical.byContradiction fun hne => ?_
    simp only [hne, decide_false] at h
    revert h
    generalize s.waiters = l
    induction l with
    | nil => simp [sendAll]
    | cons p l ih =>
      obtain ⟨w', h', c⟩ := p
      simp only [sendAll]
      split
      · exact ih
      · rename_i a r' e
        split
        · exact ih
        · intro h
          rcases List.mem_cons.mp h with h | h
          · simp only [Prod.mk.injEq] at h
            rw [← h.2.1] at e
            simp [Handler.send] at e
          · exact ih h
  cases op with
  | add x =>
    simp only [State.step, State.add] at h ⊢
    split at h
    · simp at h
    · rename_i hs; rw [if_neg hs]; exact hw s x h
  | complete x st => simp [State.step] at h
  | popDone c => simp only [State.step] at h; split at h <;> simp at h
  | wait hd c =>
    simp only [State.step, State.wait] at h ⊢
    split at h
    · rename_i r' d e
      simp only [List.mem_singleton, Prod.mk.injEq] at h
      rw [← h.2.1] at e
      simp only [State.start] at e
      split at e
      · rename_i hp
        exact hp
      · cases e
    · simp at h
  | cancelWaiter w => simp only [State.step] at h; split at h <;> simp at h
  | run =>
    simp only [State.step] at h ⊢
    split at h
    · simp at h
    · rename_i x ready hr
      exact hw _ x h
    · simp at h

/-- C57 does not hold for `wait_first_n`: with a number larger than the number of futures it never finishes, though everything
is done. -/
theorem C57_wait_first_n_violated :
    let s := ({} : State).runAll [.add 0, .wait (.firstN 0 2) 0, .complete 0 .result, .run]
    s.pending = [] ∧ s.ready = [] ∧ s.waiters = [(0, .firstN 1 2, false)] := by decide

/-- C57 does not hold for `wait_next` of a group without pending futures. -/
theorem C57_wait_next_violated :
    let s := ({} : State).runAll [.add 0, .complete 0 .result, .run, .wait .next 0]
    s.pending = [] ∧ s.ready = [] ∧ s.waiters = [(0, .next, false)] := by decide

/-- `wait_next` propagates `None`, not the future its documentation promises (747-752). -/
theorem C57_wait_next_result_violated :
    trace {} [.add 0, .wait .next 0, .complete 0 .result, .run] =
      [(.add 0, {}), (.wait .next 0, {}), (.complete 0 .result, {}), (.run, { finished := [(0, .next, .none)] })] := by decide

end Verif.TaskGroup
