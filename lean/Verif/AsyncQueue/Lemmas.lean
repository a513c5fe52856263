import Verif.AsyncQueue.Model

/-! Invariants behind C18–C21. -/
namespace Verif.AsyncQueue

variable {α : Type}

/-! ### specification: what is seen from outside -/

/-- What the operations of a history returned. -/
def trace (s : State α) : List (Op α) → List (Op α × Out α)
  | [] => []
  | op :: ops => (op, (s.step op).2) :: trace (s.step op).1 ops

/-- The elements a put reported as accepted (`0` at once, `2` after waiting), in order. -/
def accepted (tr : List (Op α × Out α)) : List α :=
  tr.filterMap fun e => match e.2 with
    | .putReturned x 0 => some x
    | .putReturned x 2 => some x
    | _ => none

/-- The elements handed to consumers, in the order in which they were handed out. -/
def obtained (tr : List (Op α × Out α)) : List α :=
  tr.filterMap fun e => match e.2 with
    | .got x => some x
    | _ => none

/-- How many times the task of a consumer was cancelled. -/
def cancels (ops : List (Op α)) : Nat :=
  (ops.filter fun | .cancelGetter _ => true | _ => false).length

/-- Elements given to a consumer that has not run yet. -/
def flying (s : State α) : List α :=
  s.ready.filterMap fun | .getter _ _ (.ok x) => some x | _ => none

/-- No consumer starts waiting while another one waits. -/
def OneWaiting (s : State α) : Op α → Prop
  | .await _ | .getResult _ | .next _ => s.waiting = []
  | _ => True

/-- Some consumer was resumed and has not run yet. -/
def getterReady (s : State α) : Prop := ∃ id k o, Ready.getter id k o ∈ s.ready

/-- There is a single consumer: nothing is retrieved while a retrieval is under way. -/
def OneConsumer (s : State α) : Op α → Prop
  | .await _ | .getResult _ | .next _ | .getResultNoWait => s.waiting = [] ∧ ¬getterReady s
  | _ => True

/-- When a producer that had to wait goes on, there is still room, and no consumer started waiting meanwhile. -/
def SpaceKept (s : State α) : Op α → Prop
  | .run => ∀ id x r, s.ready = .setter id x (some true) :: r → s.hasRoom = true ∧ s.waiter = none
  | _ => True

/-- A condition holds before each operation of a history. -/
def Always (c : State α → Op α → Prop) (s : State α) : List (Op α) → Prop
  | [] => True
  | op :: ops => c s op ∧ Always c (s.step op).1 ops

/-! ### helpers -/

def accOf : Out α → List α
  | .putReturned x 0 => [x]
  | .putReturned x 2 => [x]
  | _ => []

def obtOf : Out α → List α
  | .got x => [x]
  | _ => []

def cancelOf : Op α → Nat
  | .cancelGetter _ => 1
  | _ => 0

theorem accepted_cons (op : Op α) (o : Out α) (tr : List (Op α × Out α)) : accepted ((op, o) :: tr) = accOf o ++ accepted tr := by
  unfold accepted accOf
  rw [List.filterMap_cons]
  split <;> rename_i h <;> simp only at h <;> split at h <;> simp_all

theorem obtained_cons (op : Op α) (o : Out α) (tr : List (Op α × Out α)) : obtained ((op, o) :: tr) = obtOf o ++ obtained tr := by
  unfold obtained obtOf
  rw [List.filterMap_cons]
  split <;> rename_i h <;> simp only at h <;> split at h <;> simp_all

theorem cancels_cons (op : Op α) (ops : List (Op α)) : cancels (op :: ops) = cancelOf op + cancels ops := by
  unfold cancels cancelOf
  cases op <;> simp <;> omega

def stuck (s : State α) : Nat := if s.waiter = some true then 1 else 0

/-- `_waiter` and the waiting consumers agree. -/
def WaiterOk (s : State α) : Prop :=
  (s.waiter ≠ some false → s.waiting = []) ∧ (s.waiter = some false → s.waiting.length = 1)

theorem flying_append (s : State α) (r : List (Ready α)) (s' : State α) (h : s'.ready = s.ready ++ r) :
    flying s' = flying s ++ r.filterMap fun | .getter _ _ (.ok x) => some x | _ => none := by
  unfold flying; rw [h, List.filterMap_append]

@[simp] theorem poll_waiter (s : State α) : s.poll.waiter = s.waiter := by unfold State.poll; split <;> rfl
@[simp] theorem poll_waiting (s : State α) : s.poll.waiting = s.waiting := by unfold State.poll; split <;> rfl
@[simp] theorem poll_results (s : State α) : s.poll.results = s.results := by unfold State.poll; split <;> rfl
@[simp] theorem poll_lifo (s : State α) : s.poll.lifo = s.lifo := by unfold State.poll; split <;> rfl
@[simp] theorem poll_maxLength (s : State α) : s.poll.maxLength = s.maxLength := by unfold State.poll; split <;> rfl
@[simp] theorem poll_flying (s : State α) : flying s.poll = flying s := by
  unfold State.poll; split <;> simp [flying]

theorem room_append (s : State α) (x : α) (h : s.hasRoom = true) : append s.maxLength s.results x = s.results ++ [x] := by
  unfold State.hasRoom at h
  unfold append
  split
  · rfl
  · rename_i n hn
    rw [hn] at h
    simp only [decide_eq_true_eq] at h
    rw [show s.results.length + 1 - n = 0 by omega]; rfl

theorem takeEnd_some {fifo : Bool} {l l' : List α} {x : α} (h : takeEnd fifo l = some (x, l')) :
    (fifo = true ∧ l = x :: l') ∨ (fifo = false ∧ l = l' ++ [x]) := by
  unfold takeEnd at h
  split at h
  · rename_i hf
    left
    split at h
    · cases h
    · simp at h; exact ⟨hf, by rw [h.1, h.2]⟩
  · rename_i hf
    right
    split at h
    · cases h
    · rename_i y hy
      simp at h
      refine ⟨by simpa using hf, ?_⟩
      obtain ⟨ys, e⟩ := List.getLast?_eq_some_iff.mp hy
      rw [← h.2, ← h.1, e]
      simp

theorem takeEnd_none {fifo : Bool} {l : List α} (h : takeEnd fifo l = none) : l = [] := by
  unfold takeEnd at h
  split at h
  · split at h
    · rfl
    · cases h
  · split at h
    · rename_i hn; exact List.getLast?_eq_none_iff.mp hn
    · cases h

/-! ### the account of the elements -/

/-- Every accepted element was obtained, is on its way to a consumer, is in the queue, or is one of at most as many lost ones
as consumers were cancelled. -/
structure Account (s : State α) (acc obt : List α) (n : Nat) : Prop where
  ok : WaiterOk s
  ex : ∃ lost, (obt ++ flying s ++ s.results ++ lost).Perm acc ∧ lost.length + stuck s ≤ n

open Classical in
theorem perm_of_count {l m : List α} (h : ∀ a, l.count a = m.count a) : l.Perm m := List.perm_iff_count.mpr h

/-- For steps that leave `_waiter` alone. -/
theorem account_keep {s s' : State α} {acc obt : List α} {n : Nat} (h : Account s acc obt n) (h1 : s'.waiter = s.waiter)
    (h2 : s'.waiting = s.waiting) (h3 : flying s' = flying s) (h4 : s'.results = s.results) : Account s' acc obt n := by
  obtain ⟨ok, lost, hp, hl⟩ := h
  exact ⟨by unfold WaiterOk; rw [h1, h2]; exact ok, lost, by rw [h3, h4]; exact hp, by unfold stuck; rw [h1]; exact hl⟩

open Classical in
theorem account_take {s s' : State α} {acc obt : List α} {n : Nat} {x : α} {l : List α} {fifo : Bool} (h : Account s acc obt n)
    (ht : takeEnd fifo s.results = some (x, l)) (h1 : s'.waiter = s.waiter) (h2 : s'.waiting = s.waiting)
    (h3 : flying s' = flying s) (h4 : s'.results = l) : Account s' acc (obt ++ [x]) n := by
  obtain ⟨ok, lost, hp, hl⟩ := h
  refine ⟨by unfold WaiterOk; rw [h1, h2]; exact ok, lost, ?_, by unfold stuck; rw [h1]; exact hl⟩
  rw [h3, h4]
  rw [List.perm_iff_count] at hp ⊢
  intro a
  have := hp a
  rcases takeEnd_some ht with ⟨_, e⟩ | ⟨_, e⟩ <;> rw [e] at this <;>
    simp only [List.count_append, List.count_cons, List.count_nil] at this ⊢ <;> omega

theorem account_wait {s : State α} {acc obt : List α} {n : Nat} (h : Account s acc obt n) (hw : s.waiting = []) (id : Nat)
    (k : Kind) : Account (s.wait id k).1 (acc ++ accOf (s.wait id k).2) (obt ++ obtOf (s.wait id k).2) n := by
  unfold State.wait
  split
  · have e1 : accOf (finish k (Except.error Exc.cancelled) : Out α) = [] := by
      unfold finish; simp only; split <;> rfl
    have e2 : obtOf (finish k (Except.error Exc.cancelled) : Out α) = [] := by
      unfold finish; simp only; split <;> rfl
    simp only [e1, e2, List.append_nil]
    split
    · exact account_keep h (by simp) (by simp) (by simp) (by simp)
    · exact h
  · rename_i hs
    have := h.ok.2 hs
    rw [hw] at this; simp at this
  · rename_i hs
    simp only [accOf, obtOf, List.append_nil]
    obtain ⟨ok, lost, hp, hl⟩ := h
    refine ⟨⟨by simp, by simp [hw]⟩, lost, hp, ?_⟩
    simp [stuck, hs] at hl ⊢; exact hl

open Classical in
theorem account_put {s : State α} {acc obt : List α} {n : Nat} (h : Account s acc obt n) (x : α) :
    Account (s.put x).1 (acc ++ accOf (s.put x).2) (obt ++ obtOf (s.put x).2) n := by
  have h0 := h
  obtain ⟨ok, lost, hp, hl⟩ := h
  unfold State.put
  split
  · rename_i c hc
    simp only [accOf, obtOf, List.append_nil]
    cases c with
    | true =>
      simp only [if_true]
      refine ⟨⟨fun _ => ok.1 (by rw [hc]; simp), by simp⟩, lost ++ [x], ?_, ?_⟩
      · rw [List.perm_iff_count] at hp ⊢
        intro a
        have := hp a
        simp only [flying, List.count_append, List.count_cons, List.count_nil] at this ⊢
        omega
      · simp [stuck, hc] at hl ⊢; exact hl
    | false =>
      simp only [Bool.false_eq_true, if_false]
      have hlen := ok.2 hc
      refine ⟨⟨fun _ => rfl, by simp [State.completeWaiter]⟩, lost, ?_, ?_⟩
      · rw [flying_append s _ (s.completeWaiter (.ok x)) rfl]
        obtain ⟨p, hp1⟩ := List.length_eq_one_iff.mp hlen
        rw [hp1]
        rw [List.perm_iff_count] at hp ⊢
        intro a
        have := hp a
        simp only [State.completeWaiter, List.reverse_cons, List.reverse_nil, List.nil_append, List.map_cons, List.map_nil,
          List.filterMap_cons, List.filterMap_nil, List.count_append, List.count_cons, List.count_nil] at this ⊢
        omega
      · simp [stuck, hc, State.completeWaiter] at hl ⊢; exact hl
  · rename_i hn
    split
    · rename_i hr
      simp only [accOf, obtOf, List.append_nil, room_append s x hr]
      refine ⟨ok, lost, ?_, hl⟩
      rw [List.perm_iff_count] at hp ⊢
      intro a
      have := hp a
      simp only [flying, List.count_append, List.count_cons, List.count_nil] at this ⊢
      omega
    · simpa [accOf, obtOf] using h0

theorem cancelReady_flying (id : Nat) (l : List (Ready α)) : ∃ lost : List α,
    ((cancelReady id l).filterMap (fun | .getter _ _ (.ok x) => some x | _ => none) ++ lost).Perm
      (l.filterMap fun | .getter _ _ (.ok x) => some x | _ => none) ∧ lost.length ≤ 1 := by
  induction l with
  | nil => exact ⟨[], by simp [cancelReady], by simp⟩
  | cons r l ih =>
    obtain ⟨lost, h1, h2⟩ := ih
    cases r with
    | getter i k o =>
      unfold cancelReady
      split
      · cases o with
        | ok x =>
          refine ⟨[x], ?_, by simp⟩
          simp only [List.filterMap_cons]
          exact List.perm_append_singleton _ _
        | error e => exact ⟨[], by simp, by simp⟩
      · cases o with
        | ok x => exact ⟨lost, by simpa [List.filterMap_cons] using h1.cons x, h2⟩
        | error e => exact ⟨lost, by simpa [List.filterMap_cons] using h1, h2⟩
    | setter i x o => exact ⟨lost, by simpa [cancelReady, List.filterMap_cons] using h1, h2⟩

/-- What a step does to the account. -/
theorem step_account (s : State α) (acc obt : List α) (n : Nat) (op : Op α) (h : Account s acc obt n) (h1 : OneWaiting s op)
    (h2 : SpaceKept s op) :
    Account (s.step op).1 (acc ++ accOf (s.step op).2) (obt ++ obtOf (s.step op).2) (n + cancelOf op) := by
  have awaitLem : ∀ fifo id, s.waiting = [] → Account (s.awaitOf fifo id).1 (acc ++ accOf (s.awaitOf fifo id).2)
      (obt ++ obtOf (s.awaitOf fifo id).2) n := by
    intro fifo id hw
    unfold State.awaitOf
    split
    · rename_i x l ht
      simp only [accOf, obtOf, List.append_nil]
      exact account_take h ht rfl rfl rfl rfl
    · split
      · simpa [accOf, obtOf] using h
      · exact account_wait h hw _ _
  have takeLem : ∀ x l, takeEnd (!s.lifo) s.results = some (x, l) →
      Account (if s.lifo = true then { s with results := l } else ({ s with results := l } : State α).poll) (acc ++ accOf (.got x))
        (obt ++ obtOf (.got x)) n := by
    intro x l ht
    simp only [accOf, obtOf, List.append_nil]
    split
    · exact account_take h ht rfl rfl rfl rfl
    · exact account_take h ht (by simp) (by simp) (by simp; rfl) (by simp)
  cases op with
  | put x => simpa [State.step, cancelOf] using account_put h x
  | putWait id x =>
    simp only [State.step, State.putWait, cancelOf, Nat.add_zero]
    split
    · exact account_put h x
    · split
      · exact account_put h x
      · simp only [accOf, obtOf, List.append_nil]
        exact account_keep h rfl rfl rfl rfl
  | setException e =>
    simp only [State.step, cancelOf, Nat.add_zero, State.setException, accOf, obtOf, List.append_nil]
    have hfil : ∀ (l : List (Nat × α × Bool)), (l.map fun b => (Ready.setter b.1 b.2.1 (some false) : Ready α)).filterMap
        (fun | .getter _ _ (.ok x) => some x | _ => none) = [] := by
      intro l; simp [List.filterMap_eq_nil_iff]
    obtain ⟨ok, lost, hp, hl⟩ := h
    split
    · rename_i c hc
      cases c with
      | true =>
        simp only [if_true]
        refine ⟨⟨fun _ => ok.1 (by rw [hc]; simp), by simp⟩, lost, ?_, by simp [stuck]; omega⟩
        simp only [flying, List.filterMap_append, hfil, List.append_nil]; exact hp
      | false =>
        simp only [Bool.false_eq_true, if_false]
        refine ⟨⟨fun _ => rfl, by simp [State.completeWaiter]⟩, lost, ?_, by simp [stuck, State.completeWaiter]; omega⟩
        simp only [flying, State.completeWaiter, List.filterMap_append, hfil, List.append_nil]
        have : (s.waiting.reverse.map fun p => (Ready.getter p.1 p.2 (Except.error e) : Ready α)).filterMap
            (fun | .getter _ _ (.ok x) => some x | _ => none) = [] := by
          simp [List.filterMap_eq_nil_iff]
        rw [this, List.append_nil]; exact hp
    · refine ⟨ok, lost, ?_, hl⟩
      simp only [flying, List.filterMap_append, hfil, List.append_nil]; exact hp
  | await id => simpa [State.step, cancelOf] using awaitLem _ id h1
  | getResult id => simpa [State.step, cancelOf] using awaitLem _ id h1
  | next id =>
    simp only [State.step, cancelOf, Nat.add_zero, State.next]
    split
    · rename_i x l ht
      exact takeLem x l ht
    · split
      · simpa [accOf, obtOf] using h
      · simpa [accOf, obtOf] using h
      · exact account_wait h h1 _ _
  | getResultNoWait =>
    simp only [State.step, cancelOf, Nat.add_zero, State.getResultNoWait]
    split
    · rename_i x l ht
      exact takeLem x l ht
    · split
      · simpa [accOf, obtOf] using h
      · simpa [accOf, obtOf] using h
  | cancelGetter id =>
    simp only [State.step, cancelOf, State.cancelGetter, accOf, obtOf, List.append_nil]
    obtain ⟨ok, lost, hp, hl⟩ := h
    split
    · rename_i hany
      have hwf : s.waiter = some false := by
        refine Classical.byContradiction fun hne => ?_
        rw [ok.1 hne] at hany; simp at hany
      refine ⟨⟨fun _ => rfl, by simp⟩, lost, ?_, ?_⟩
      · have : (s.waiting.reverse.map fun p => (Ready.getter p.1 p.2 (Except.error Exc.cancelled) : Ready α)).filterMap
            (fun | .getter _ _ (.ok x) => some x | _ => none) = [] := by
          simp [List.filterMap_eq_nil_iff]
        simp only [flying, List.filterMap_append, this, List.append_nil]; exact hp
      · simp [stuck, hwf] at hl ⊢; omega
    · obtain ⟨lost', h1, h2⟩ := cancelReady_flying id s.ready
      refine ⟨ok, lost ++ lost', ?_, by simp only [List.length_append, stuck] at hl ⊢; omega⟩
      classical
      rw [List.perm_iff_count] at hp h1 ⊢
      intro a
      have e1 := hp a
      have e2 := h1 a
      simp only [flying, List.count_append] at e1 e2 ⊢
      omega
  | cancelSetter id =>
    simp only [State.step, cancelOf, Nat.add_zero, State.cancelSetter, accOf, obtOf, List.append_nil]
    split
    · exact account_keep h rfl rfl (by simp [flying]) rfl
    · refine account_keep h rfl rfl ?_ rfl
      simp only [flying, List.filterMap_map]
      congr 1; funext r
      cases r with
      | getter _ _ o => rfl
      | setter i x o =>
        by_cases hi : i = id
        · simp [hi]
        · simp [hi]
  | run =>
    have hrun := h2
    simp only [SpaceKept] at hrun
    simp only [State.step, cancelOf, Nat.add_zero, State.run]
    split
    · simpa [accOf, obtOf] using h
    · rename_i i k o ready hr
      have key : Account { s with ready := ready } (acc ++ accOf (finish k o)) (obt ++ obtOf (finish k o)) n := by
        obtain ⟨ok, lost, hp, hl⟩ := h
        refine ⟨ok, lost, ?_, hl⟩
        unfold flying at hp ⊢
        rw [hr] at hp
        simp only at hp ⊢
        cases o with
        | ok x => simpa [finish, accOf, obtOf] using hp
        | error e =>
          have e1 : accOf (finish k (Except.error e) : Out α) = [] := by unfold finish; cases e <;> simp only <;> (try split) <;> rfl
          have e2 : obtOf (finish k (Except.error e) : Out α) = [] := by unfold finish; cases e <;> simp only <;> (try split) <;> rfl
          simpa [e1, e2] using hp
      simp only
      split
      · exact account_keep key (by simp) (by simp) (by simp) (by simp)
      · exact key
    · rename_i i x ready hr
      obtain ⟨hroom, hw⟩ := hrun _ _ _ hr
      obtain ⟨ok, lost, hp, hl⟩ := h
      simp only [accOf, obtOf, List.append_nil, room_append s x hroom]
      refine ⟨ok, lost, ?_, hl⟩
      have hf : flying { s with ready := ready, results := s.results ++ [x] } = flying s := by simp [flying, hr]
      rw [hf]
      classical
      rw [List.perm_iff_count] at hp ⊢
      intro a
      have := hp a
      simp only [List.count_append, List.count_cons, List.count_nil] at this ⊢
      omega
    · rename_i i x ready hr
      simp only [accOf, obtOf, List.append_nil]
      exact account_keep h rfl rfl (by simp [flying, hr]) rfl
    · rename_i i x ready hr
      simp only [accOf, obtOf, List.append_nil]
      exact account_keep h rfl rfl (by simp [flying, hr]) rfl

/-! ### order -/

/-- With a single consumer of a FIFO queue: what was obtained, is on its way and is in the queue was accepted in this order. -/
structure Order (s : State α) (acc obt : List α) : Prop where
  fifo : s.lifo = false
  sub : (obt ++ flying s ++ s.results).Sublist acc
  idle : s.waiter = some false → s.results = [] ∧ flying s = []

theorem order_keep {s s' : State α} {acc obt : List α} (h : Order s acc obt) (h0 : s'.lifo = s.lifo)
    (h1 : s'.waiter = s.waiter) (h3 : flying s' = flying s) (h4 : s'.results = s.results) : Order s' acc obt := by
  obtain ⟨a, b, c⟩ := h
  exact ⟨by rw [h0]; exact a, by rw [h3, h4]; exact b, by rw [h1, h3, h4]; exact c⟩

theorem not_ready_flying {s : State α} (h : ¬getterReady s) : flying s = [] := by
  unfold flying
  rw [List.filterMap_eq_nil_iff]
  intro r hr
  cases r with
  | getter i k o => exact absurd ⟨i, k, o, hr⟩ h
  | setter i x o => rfl

theorem cancelReady_sub (id : Nat) (l : List (Ready α)) :
    ((cancelReady id l).filterMap (fun | .getter _ _ (.ok x) => some x | _ => none)).Sublist
      (l.filterMap fun | .getter _ _ (.ok x) => some x | _ => none) := by
  induction l with
  | nil => simp [cancelReady]
  | cons r l ih =>
    cases r with
    | getter i k o =>
      unfold cancelReady
      split
      · cases o with
        | ok x => simp
        | error e => simp
      · cases o with
        | ok x => simpa [List.filterMap_cons] using ih
        | error e => simpa [List.filterMap_cons] using ih
    | setter i x o => simpa [cancelReady, List.filterMap_cons] using ih

theorem order_put {s : State α} {acc obt : List α} (h : Order s acc obt) (hok : WaiterOk s) (x : α) :
    Order (s.put x).1 (acc ++ accOf (s.put x).2) (obt ++ obtOf (s.put x).2) := by
  have h0 := h
  obtain ⟨a, b, c⟩ := h
  unfold State.put
  split
  · rename_i k hc
    simp only [accOf, obtOf, List.append_nil]
    cases k with
    | true =>
      simp only [if_true]
      exact ⟨a, b.trans (List.sublist_append_left _ _), by simp⟩
    | false =>
      simp only [Bool.false_eq_true, if_false]
      obtain ⟨c1, c2⟩ := c hc
      obtain ⟨p, hp1⟩ := List.length_eq_one_iff.mp (hok.2 hc)
      refine ⟨a, ?_, by simp [State.completeWaiter]⟩
      rw [flying_append s _ (s.completeWaiter (.ok x)) rfl, c2, hp1]
      rw [c1, c2] at b
      simp only [State.completeWaiter, c1, List.reverse_cons, List.reverse_nil, List.nil_append, List.map_cons, List.map_nil,
        List.filterMap_cons, List.filterMap_nil, List.append_nil] at b ⊢
      exact b.append (List.Sublist.refl _)
  · rename_i hn
    split
    · rename_i hr
      simp only [accOf, obtOf, List.append_nil, room_append s x hr]
      refine ⟨a, ?_, by simp [hn]⟩
      have : obt ++ flying s ++ (s.results ++ [x]) = obt ++ flying s ++ s.results ++ [x] := by simp
      show (obt ++ flying s ++ (s.results ++ [x])).Sublist _
      rw [this]
      exact b.append (List.Sublist.refl _)
    · simpa [accOf, obtOf] using h0

theorem order_take {s s' : State α} {acc obt : List α} {x : α} {l : List α} (h : Order s acc obt)
    (hf : flying s = []) (ht : takeEnd true s.results = some (x, l)) (h0 : s'.lifo = s.lifo) (h1 : s'.waiter = s.waiter)
    (h3 : flying s' = flying s) (h4 : s'.results = l) : Order s' acc (obt ++ [x]) := by
  obtain ⟨a, b, c⟩ := h
  rcases takeEnd_some ht with ⟨_, e⟩ | ⟨e, _⟩
  · refine ⟨by rw [h0]; exact a, ?_, ?_⟩
    · rw [h3, h4, hf]; rw [hf, e] at b; simpa using b
    · intro hw; rw [h1] at hw; rw [(c hw).1] at e; simp at e
  · simp at e

theorem order_wait {s : State α} {acc obt : List α} (h : Order s acc obt) (hr : s.results = []) (hf : flying s = [])
    (id : Nat) (k : Kind) : Order (s.wait id k).1 (acc ++ accOf (s.wait id k).2) (obt ++ obtOf (s.wait id k).2) := by
  unfold State.wait
  split
  · have e1 : accOf (finish k (Except.error Exc.cancelled) : Out α) = [] := by
      unfold finish; simp only; split <;> rfl
    have e2 : obtOf (finish k (Except.error Exc.cancelled) : Out α) = [] := by
      unfold finish; simp only; split <;> rfl
    simp only [e1, e2, List.append_nil]
    split
    · exact order_keep h (by simp) (by simp) (by simp) (by simp)
    · exact h
  · simp only [accOf, obtOf, List.append_nil]
    exact order_keep h rfl rfl rfl rfl
  · simp only [accOf, obtOf, List.append_nil]
    exact ⟨h.fifo, h.sub, fun _ => ⟨hr, hf⟩⟩

theorem step_order (s : State α) (acc obt : List α) (op : Op α) (h : Order s acc obt) (hok : WaiterOk s) (h1 : OneConsumer s op)
    (h2 : SpaceKept s op) : Order (s.step op).1 (acc ++ accOf (s.step op).2) (obt ++ obtOf (s.step op).2) := by
  have hfifo := h.fifo
  have awaitLem : ∀ id, s.waiting = [] ∧ ¬getterReady s → Order (s.awaitOf true id).1 (acc ++ accOf (s.awaitOf true id).2)
      (obt ++ obtOf (s.awaitOf true id).2) := by
    intro id hw
    have hf := not_ready_flying hw.2
    unfold State.awaitOf
    split
    · rename_i x l ht
      simp only [accOf, obtOf, List.append_nil]
      exact order_take h hf ht rfl rfl rfl rfl
    · rename_i ht
      split
      · simpa [accOf, obtOf] using h
      · exact order_wait h (takeEnd_none ht) hf _ _
  cases op with
  | put x => exact order_put h hok x
  | putWait id x =>
    simp only [State.step, State.putWait]
    split
    · exact order_put h hok x
    · split
      · exact order_put h hok x
      · simp only [accOf, obtOf, List.append_nil]
        exact order_keep h rfl rfl rfl rfl
  | setException e =>
    simp only [State.step, State.setException, accOf, obtOf, List.append_nil]
    have hfil : ∀ (l : List (Nat × α × Bool)), (l.map fun b => (Ready.setter b.1 b.2.1 (some false) : Ready α)).filterMap
        (fun | .getter _ _ (.ok x) => some x | _ => none) = [] := by
      intro l; simp [List.filterMap_eq_nil_iff]
    obtain ⟨a, b, c⟩ := h
    split
    · rename_i k hc
      cases k with
      | true =>
        simp only [if_true]
        refine ⟨a, ?_, by simp⟩
        simp only [flying, List.filterMap_append, hfil, List.append_nil]; exact b
      | false =>
        simp only [Bool.false_eq_true, if_false]
        refine ⟨a, ?_, by simp [State.completeWaiter]⟩
        simp only [flying, State.completeWaiter, List.filterMap_append, hfil, List.append_nil]
        have : (s.waiting.reverse.map fun p => (Ready.getter p.1 p.2 (Except.error e) : Ready α)).filterMap
            (fun | .getter _ _ (.ok x) => some x | _ => none) = [] := by
          simp [List.filterMap_eq_nil_iff]
        rw [this, List.append_nil]; exact b
    · rename_i hc
      refine ⟨a, ?_, by simp [hc]⟩
      simp only [flying, List.filterMap_append, hfil, List.append_nil]; exact b
  | await id => simp only [State.step, hfifo, Bool.not_false]; exact awaitLem id h1
  | getResult id => exact awaitLem id h1
  | next id =>
    have hf := not_ready_flying h1.2
    simp only [State.step, State.next, hfifo, Bool.not_false]
    split
    · rename_i x l ht
      simp only [accOf, obtOf, List.append_nil, Bool.false_eq_true, if_false]
      exact order_take h hf ht (by simp [hfifo]) (by simp) (by simp; rfl) (by simp)
    · rename_i ht
      split
      · simpa [accOf, obtOf] using h
      · simpa [accOf, obtOf] using h
      · exact order_wait h (takeEnd_none ht) hf _ _
  | getResultNoWait =>
    have hf := not_ready_flying h1.2
    simp only [State.step, State.getResultNoWait, hfifo, Bool.not_false]
    split
    · rename_i x l ht
      simp only [accOf, obtOf, List.append_nil, Bool.false_eq_true, if_false]
      exact order_take h hf ht (by simp [hfifo]) (by simp) (by simp; rfl) (by simp)
    · split
      · simpa [accOf, obtOf] using h
      · simpa [accOf, obtOf] using h
  | cancelGetter id =>
    simp only [State.step, State.cancelGetter, accOf, obtOf, List.append_nil]
    obtain ⟨a, b, c⟩ := h
    split
    · refine ⟨a, ?_, by simp⟩
      have : (s.waiting.reverse.map fun p => (Ready.getter p.1 p.2 (Except.error Exc.cancelled) : Ready α)).filterMap
          (fun | .getter _ _ (.ok x) => some x | _ => none) = [] := by
        simp [List.filterMap_eq_nil_iff]
      simp only [flying, List.filterMap_append, this, List.append_nil]; exact b
    · have hs := cancelReady_sub id s.ready
      refine ⟨a, ?_, ?_⟩
      · exact (((List.Sublist.refl obt).append hs).append (List.Sublist.refl _)).trans b
      · intro hw
        obtain ⟨c1, c2⟩ := c hw
        refine ⟨c1, ?_⟩
        unfold flying at c2 ⊢
        rw [c2] at hs
        exact List.sublist_nil.mp hs
  | cancelSetter id =>
    simp only [State.step, State.cancelSetter, accOf, obtOf, List.append_nil]
    split
    · exact order_keep h rfl rfl (by simp [flying]) rfl
    · refine order_keep h rfl rfl ?_ rfl
      simp only [flying, List.filterMap_map]
      congr 1; funext r
      cases r with
      | getter _ _ o => rfl
      | setter i x o =>
        by_cases hi : i = id
        · simp [hi]
        · simp [hi]
  | run =>
    have hrun := h2
    simp only [SpaceKept] at hrun
    simp only [State.step, State.run]
    split
    · simpa [accOf, obtOf] using h
    · rename_i i k o ready hr
      have key : Order { s with ready := ready } (acc ++ accOf (finish k o)) (obt ++ obtOf (finish k o)) := by
        obtain ⟨a, b, c⟩ := h
        have hfl : ∀ x ∈ flying { s with ready := ready }, x ∈ flying s := by
          intro x hx; unfold flying at hx ⊢; rw [hr, List.filterMap_cons]; split
          · exact hx
          · exact List.mem_cons_of_mem _ hx
        refine ⟨a, ?_, ?_⟩
        · unfold flying at b ⊢
          rw [hr] at b
          simp only at b ⊢
          cases o with
          | ok x => simpa [finish, accOf, obtOf] using b
          | error e =>
            have e1 : accOf (finish k (Except.error e) : Out α) = [] := by
              unfold finish; cases e <;> simp only <;> (try split) <;> rfl
            have e2 : obtOf (finish k (Except.error e) : Out α) = [] := by
              unfold finish; cases e <;> simp only <;> (try split) <;> rfl
            simpa [e1, e2] using b
        · intro hw
          refine ⟨(c hw).1, List.eq_nil_iff_forall_not_mem.mpr fun x hx => ?_⟩
          have := hfl x hx
          rw [(c hw).2] at this; simp at this
      simp only
      split
      · exact order_keep key (by simp) (by simp) (by simp) (by simp)
      · exact key
    · rename_i i x ready hr
      obtain ⟨hroom, hw⟩ := hrun _ _ _ hr
      obtain ⟨a, b, c⟩ := h
      simp only [accOf, obtOf, List.append_nil, room_append s x hroom]
      refine ⟨a, ?_, by simp [hw]⟩
      have hf : flying { s with ready := ready, results := s.results ++ [x] } = flying s := by simp [flying, hr]
      rw [hf]
      have : obt ++ flying s ++ (s.results ++ [x]) = obt ++ flying s ++ s.results ++ [x] := by simp
      show (obt ++ flying s ++ (s.results ++ [x])).Sublist _
      rw [this]
      exact b.append (List.Sublist.refl _)
    · rename_i i x ready hr
      simp only [accOf, obtOf, List.append_nil]
      exact order_keep h rfl rfl (by simp [flying, hr]) rfl
    · rename_i i x ready hr
      simp only [accOf, obtOf, List.append_nil]
      exact order_keep h rfl rfl (by simp [flying, hr]) rfl

theorem oneConsumer_oneWaiting {s : State α} {op : Op α} (h : OneConsumer s op) : OneWaiting s op := by
  cases op <;> simp_all [OneConsumer, OneWaiting]

theorem run_account (ops : List (Op α)) : ∀ (s : State α) (acc obt : List α) (n : Nat), Account s acc obt n →
    Always OneWaiting s ops → Always SpaceKept s ops →
    Account (s.runAll ops) (acc ++ accepted (trace s ops)) (obt ++ obtained (trace s ops)) (n + cancels ops) := by
  induction ops with
  | nil => intro s acc obt n h _ _; simpa [trace, accepted, obtained, cancels, State.runAll] using h
  | cons op ops ih =>
    intro s acc obt n h h1 h2
    have := ih _ _ _ _ (step_account s acc obt n op h h1.1 h2.1) h1.2 h2.2
    rw [trace, accepted_cons, obtained_cons, cancels_cons]
    simpa [State.runAll, Nat.add_assoc] using this

theorem run_order (ops : List (Op α)) : ∀ (s : State α) (acc obt : List α) (n : Nat), Account s acc obt n → Order s acc obt →
    Always OneConsumer s ops → Always SpaceKept s ops →
    Order (s.runAll ops) (acc ++ accepted (trace s ops)) (obt ++ obtained (trace s ops)) := by
  induction ops with
  | nil => intro s acc obt n _ h _ _; simpa [trace, accepted, obtained, State.runAll] using h
  | cons op ops ih =>
    intro s acc obt n ha h h1 h2
    have := ih _ _ _ _ (step_account s acc obt n op ha (oneConsumer_oneWaiting h1.1) h2.1)
      (step_order s acc obt op h ha.ok h1.1 h2.1) h1.2 h2.2
    rw [trace, accepted_cons, obtained_cons]
    simpa [State.runAll] using this

theorem always_mono {c d : State α → Op α → Prop} (h : ∀ s op, c s op → d s op) (ops : List (Op α)) :
    ∀ s : State α, Always c s ops → Always d s ops := by
  induction ops with
  | nil => intro s _; trivial
  | cons op ops ih => intro s hs; exact ⟨h _ _ hs.1, ih _ hs.2⟩

theorem account_init (lifo : Bool) (m : Option Nat) : Account ({ lifo := lifo, maxLength := m } : State α) [] [] 0 :=
  ⟨⟨fun _ => rfl, by simp⟩, [], by simp [flying], by simp [stuck]⟩

end Verif.AsyncQueue
