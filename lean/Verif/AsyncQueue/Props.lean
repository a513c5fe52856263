import Verif.AsyncQueue.Lemmas

/-! C18–C21: elements of `AsyncQueue`, cancelled consumers, blocked producers, `AsyncLifoQueue`. -/
namespace Verif.AsyncQueue

variable {α : Type}

/-- No producer is blocked or resumed. -/
def NoProducer (s : State α) : Prop :=
  s.maxLength = none ∧ s.blocked = [] ∧ ∀ r ∈ s.ready, ∀ i x o, r ≠ .setter i x o

theorem noProducer_poll {s : State α} (h : NoProducer s) : NoProducer s.poll := by
  have : s.poll = s := by simp only [State.poll, h.2.1, pollList]; cases s; simp_all [NoProducer]
  rw [this]; exact h

theorem noProducer_ready {s s' : State α} (h : NoProducer s) (h1 : s'.maxLength = s.maxLength) (h2 : s'.blocked = s.blocked)
    (h3 : ∀ r ∈ s'.ready, r ∈ s.ready ∨ ∃ i k o, r = .getter i k o) : NoProducer s' := by
  refine ⟨by rw [h1]; exact h.1, by rw [h2]; exact h.2.1, fun r hr => ?_⟩
  rcases h3 r hr with h' | ⟨i, k, o, rfl⟩
  · exact h.2.2 r h'
  · intro _ _ _; simp

theorem noProducer_step (s : State α) (op : Op α) (h : NoProducer s) : NoProducer (s.step op).1 := by
  have hroom : s.hasRoom = true := by simp [State.hasRoom, h.1]
  have hget : ∀ (l : List (Nat × Kind)) (o : Except Exc α) (s' : State α), s'.maxLength = s.maxLength → s'.blocked = s.blocked →
      s'.ready = s.ready ++ l.map (fun p => .getter p.1 p.2 o) → NoProducer s' := by
    intro l o s' h1 h2 h3
    refine noProducer_ready h h1 h2 fun r hr => ?_
    rw [h3] at hr
    rcases List.mem_append.mp hr with hr | hr
    · exact Or.inl hr
    · obtain ⟨p, _, rfl⟩ := List.mem_map.mp hr
      exact Or.inr ⟨_, _, _, rfl⟩
  have hput : ∀ x, NoProducer (s.put x).1 := by
    intro x
    unfold State.put
    split
    · split
      · exact h
      · exact hget s.waiting.reverse (.ok x) _ rfl rfl rfl
    · rw [if_pos hroom]; exact h
  have hwait : ∀ id k, NoProducer (s.wait id k).1 := by
    intro id k
    unfold State.wait
    split
    · split
      · exact noProducer_poll h
      · exact h
    · exact h
    · exact h
  have hawait : ∀ f id, NoProducer (s.awaitOf f id).1 := by
    intro f id
    unfold State.awaitOf
    split
    · exact h
    · split
      · exact h
      · exact hwait _ _
  cases op with
  | put x => exact hput x
  | putWait id x =>
    simp only [State.step, State.putWait]
    split
    · exact hput x
    · rw [if_pos hroom]; exact hput x
  | setException e =>
    simp only [State.step, State.setException]
    split
    · split
      · exact hget [] (.error e) _ rfl h.2.1.symm (by simp [h.2.1])
      · exact hget s.waiting.reverse (.error e) _ rfl h.2.1.symm (by simp [State.completeWaiter, h.2.1])
    · exact hget [] (.error e) _ rfl h.2.1.symm (by simp [h.2.1])
  | await id => exact hawait _ id
  | getResult id => exact hawait _ id
  | next id =>
    simp only [State.step, State.next]
    split
    · simp only
      split
      · exact h
      · exact noProducer_poll h
    · split
      · exact h
      · exact h
      · exact hwait _ _
  | getResultNoWait =>
    simp only [State.step, State.getResultNoWait]
    split
    · simp only
      split
      · exact h
      · exact noProducer_poll h
    · split
      · exact h
      · exact h
  | cancelGetter id =>
    simp only [State.step, State.cancelGetter]
    split
    · exact hget s.waiting.reverse (.error .cancelled) _ rfl rfl rfl
    · refine noProducer_ready h rfl rfl ?_
      simp only
      generalize s.ready = l
      induction l with
      | nil => simp [cancelReady]
      | cons r l ih =>
        have h1 : ∀ r' ∈ cancelReady id l, r' ∈ r :: l ∨ ∃ i k o, r' = .getter i k o := fun r' hr =>
          (ih r' hr).imp (List.mem_cons_of_mem _) (fun h => h)
        cases r with
        | getter i k o =>
          unfold cancelReady
          split
          · intro r hr
            rcases List.mem_cons.mp hr with rfl | hr
            · exact Or.inr ⟨_, _, _, rfl⟩
            · exact Or.inl (List.mem_cons_of_mem _ hr)
          · intro r hr
            rcases List.mem_cons.mp hr with rfl | hr
            · exact Or.inr ⟨_, _, _, rfl⟩
            · exact h1 r hr
        | setter i x o =>
          intro r hr
          rcases List.mem_cons.mp hr with rfl | hr
          · exact Or.inl (by simp)
          · exact h1 r hr
  | cancelSetter id =>
    simp only [State.step, State.cancelSetter, h.2.1, List.find?_nil]
    refine noProducer_ready h rfl h.2.1.symm ?_
    intro r hr
    obtain ⟨p, hp, rfl⟩ := List.mem_map.mp hr
    cases p with
    | getter i k o => exact Or.inr ⟨_, _, _, rfl⟩
    | setter i x o => exact absurd rfl (h.2.2 _ hp i x o)
  | run =>
    simp only [State.step, State.run]
    split
    · exact h
    · rename_i k o ready hr
      have key : NoProducer { s with ready := ready } :=
        noProducer_ready h rfl rfl fun r hm => Or.inl (by rw [hr]; exact List.mem_cons_of_mem _ hm)
      simp only
      split
      · exact noProducer_poll key
      · exact key
    · rename_i i x ready hr
      exact absurd rfl (h.2.2 _ (by rw [hr]; simp) i x (some true))
    · rename_i i x ready hr
      exact absurd rfl (h.2.2 _ (by rw [hr]; simp) i x (some false))
    · rename_i i x ready hr
      exact absurd rfl (h.2.2 _ (by rw [hr]; simp) i x none)

/-- An unbounded queue never has a blocked producer. -/
theorem unbounded_space (ops : List (Op α)) : ∀ s : State α, NoProducer s → Always SpaceKept s ops := by
  induction ops with
  | nil => intro s _; trivial
  | cons op ops ih =>
    intro s h
    refine ⟨?_, ih _ (noProducer_step s op h)⟩
    cases op <;> try trivial
    intro i x r hr
    exact absurd rfl (h.2.2 (.setter i x (some true)) (by rw [hr]; simp) i x (some true))

/-! ### C18 -/

/-- C18, for a single consumer that is not cancelled, as long as a producer that had to wait finds room and no waiting consumer
when it goes on: the elements obtained, followed by the one on its way to the consumer and those in the queue, are exactly the
accepted ones, in order. -/
theorem C18_fifo_partial (m : Option Nat) (ops : List (Op α)) (hc : cancels ops = 0)
    (h1 : Always OneConsumer { maxLength := m } ops) (h2 : Always SpaceKept { maxLength := m } ops) :
    accepted (trace { maxLength := m } ops) = obtained (trace { maxLength := m } ops) ++
      flying (({ maxLength := m } : State α).runAll ops) ++ (({ maxLength := m } : State α).runAll ops).results := by
  have ha := run_account ops _ [] [] 0 (account_init false m) (always_mono (fun _ _ => oneConsumer_oneWaiting) ops _ h1) h2
  have ho := run_order ops _ [] [] 0 (account_init false m) ⟨rfl, by simp [flying], by simp⟩ h1 h2
  obtain ⟨_, lost, hp, hl⟩ := ha
  rw [hc] at hl
  have hl0 : lost = [] := List.eq_nil_of_length_eq_zero (by omega)
  rw [hl0] at hp
  simp only [List.nil_append, List.append_nil] at hp ho
  exact (ho.sub.eq_of_length hp.length_eq).symm

/-- C18 for an unbounded queue: only the single consumer is required. -/
theorem C18_unbounded_fifo_partial (ops : List (Op α)) (hc : cancels ops = 0) (h1 : Always OneConsumer {} ops) :
    accepted (trace {} ops) = obtained (trace {} ops) ++ flying (({} : State α).runAll ops) ++ (({} : State α).runAll ops).results :=
  C18_fifo_partial none ops hc h1 (unbounded_space ops _ ⟨rfl, rfl, by simp⟩)

/-- C18, several consumers, of which no two wait at the same time: every accepted element is obtained once, is on its way to one
consumer, or is in the queue once. Holds for `AsyncLifoQueue` as well. -/
theorem C18_exactly_once_partial (lifo : Bool) (m : Option Nat) (ops : List (Op α)) (hc : cancels ops = 0)
    (h1 : Always OneWaiting { lifo := lifo, maxLength := m } ops) (h2 : Always SpaceKept { lifo := lifo, maxLength := m } ops) :
    (obtained (trace { lifo := lifo, maxLength := m } ops) ++ flying (({ lifo := lifo, maxLength := m } : State α).runAll ops) ++
      (({ lifo := lifo, maxLength := m } : State α).runAll ops).results).Perm
      (accepted (trace { lifo := lifo, maxLength := m } ops)) := by
  obtain ⟨_, lost, hp, hl⟩ := run_account ops _ [] [] 0 (account_init lifo m) h1 h2
  rw [hc] at hl
  have hl0 : lost = [] := List.eq_nil_of_length_eq_zero (by omega)
  rw [hl0] at hp
  simpa using hp

/-- C18, single consumer that may be cancelled at any time: what it obtains is still in order and never duplicated. -/
theorem C18_never_reordered_partial (m : Option Nat) (ops : List (Op α))
    (h1 : Always OneConsumer { maxLength := m } ops) (h2 : Always SpaceKept { maxLength := m } ops) :
    (obtained (trace { maxLength := m } ops) ++ (({ maxLength := m } : State α).runAll ops).results).Sublist
      (accepted (trace { maxLength := m } ops)) := by
  have ho := (run_order ops _ [] [] 0 (account_init false m) ⟨rfl, by simp [flying], by simp⟩ h1 h2).sub
  simp only [List.nil_append] at ho
  refine List.Sublist.trans ?_ ho
  exact (List.sublist_append_left _ _).append (List.Sublist.refl _)

/-- Instance of the conditions: a consumer waits, gets an element handed over, and takes two from the queue. -/
example : Always OneConsumer ({} : State Nat) [.await 0, .put 1, .put 2, .put 3, .run, .next 1, .getResultNoWait] ∧
    obtained (trace ({} : State Nat) [.await 0, .put 1, .put 2, .put 3, .run, .next 1, .getResultNoWait]) = [1, 2, 3] := by
  refine ⟨?_, by decide⟩
  simp [Always, OneConsumer, State.step, State.awaitOf, takeEnd, State.wait, State.put, State.completeWaiter, State.hasRoom,
    append, getterReady, State.run, State.poll, pollList, State.next]

/-- C18 does not hold for two waiting consumers: they share one future, so both obtain the same element. -/
theorem C18_duplicate_violated :
    let ops : List (Op Nat) := [.await 0, .await 1, .put 7, .run, .run]
    accepted (trace {} ops) = [7] ∧ obtained (trace {} ops) = [7, 7] := by decide

/-- C18 does not hold for two consumers: the second takes a later element before the first has run. -/
theorem C18_overtaking_violated :
    let ops : List (Op Nat) := [.await 0, .put 1, .put 2, .await 1, .run]
    accepted (trace {} ops) = [1, 2] ∧ obtained (trace {} ops) = [2, 1] := by decide

/-- C18 does not hold for a bounded queue: a producer resumed after the free place was taken pushes the oldest element out. -/
theorem C18_evicted_violated :
    let ops : List (Op Nat) := [.put 1, .putWait 0 2, .getResultNoWait, .put 3, .run, .getResultNoWait, .getResultNoWait]
    accepted (trace { maxLength := some 1 } ops) = [1, 3, 2] ∧ obtained (trace { maxLength := some 1 } ops) = [1, 2] ∧
    (({ maxLength := some 1 } : State Nat).runAll ops).results = [] := by decide

/-- C18 does not hold for a bounded queue with a single consumer: a resumed producer appends to the queue although the consumer
waits; the consumer is not woken, the next element put is handed to it instead, out of order. -/
theorem C18_waiting_consumer_passed_over_violated :
    let ops : List (Op Nat) := [.put 1, .putWait 0 2, .getResultNoWait, .next 1, .run]
    (({ maxLength := some 1 } : State Nat).runAll ops).results = [2] ∧
    (({ maxLength := some 1 } : State Nat).runAll ops).waiting.length = 1 ∧
    (({ maxLength := some 1 } : State Nat).runAll ops).ready.length = 0 ∧
    accepted (trace { maxLength := some 1 } (ops ++ [.put 3, .run, .next 2])) = [1, 2, 3] ∧
    obtained (trace { maxLength := some 1 } (ops ++ [.put 3, .run, .next 2])) = [1, 3, 2] := by decide

/-! ### C19 -/

/-- C19, weakened: a cancelled consumer loses at most one element. When no resumed consumer is left to run, all accepted
elements but at most one per cancellation were obtained or are in the queue. -/
theorem C19_at_most_one_lost_partial (lifo : Bool) (m : Option Nat) (ops : List (Op α))
    (h1 : Always OneWaiting { lifo := lifo, maxLength := m } ops) (h2 : Always SpaceKept { lifo := lifo, maxLength := m } ops)
    (hq : ¬getterReady (({ lifo := lifo, maxLength := m } : State α).runAll ops)) :
    ∃ lost : List α, (obtained (trace { lifo := lifo, maxLength := m } ops) ++
      (({ lifo := lifo, maxLength := m } : State α).runAll ops).results ++ lost).Perm
        (accepted (trace { lifo := lifo, maxLength := m } ops)) ∧ lost.length ≤ cancels ops := by
  obtain ⟨_, lost, hp, hl⟩ := run_account ops _ [] [] 0 (account_init lifo m) h1 h2
  refine ⟨lost, ?_, by omega⟩
  rw [not_ready_flying hq] at hp
  simpa using hp

/-- C19 does not hold: the waiting consumer is cancelled; the next element is reported as accepted but given to nobody. -/
theorem C19_element_lost_violated :
    let ops : List (Op Nat) := [.await 0, .cancelGetter 0, .run, .put 7]
    accepted (trace {} ops) = [7] ∧ (({} : State Nat).runAll ops).results = [] ∧
    trace (({} : State Nat).runAll ops) [.getResultNoWait] = [(.getResultNoWait, .indexError)] := by decide

/-- C19 does not hold: after the cancellation every further consumer, of another task, gets `CancelledError` at once, until an
element is put (and lost). -/
theorem C19_spurious_cancel_violated (n : Nat) :
    trace (({} : State Nat).runAll [.await 0, .cancelGetter 0, .run]) (List.replicate n (.await 1)) =
      List.replicate n (.await 1, .raised .cancelled) := by
  have h : (({} : State Nat).runAll [.await 0, .cancelGetter 0, .run]).step (.await 1) =
      (({} : State Nat).runAll [.await 0, .cancelGetter 0, .run], .raised .cancelled) := by
    simp [State.runAll, State.step, State.awaitOf, takeEnd, State.wait, State.cancelGetter, State.run, State.poll, pollList, finish]
  induction n with
  | zero => rfl
  | succ n ih =>
    rw [List.replicate_succ, List.replicate_succ, trace, h, ih]

/-! ### C20 -/

/-- A producer waits in `set_result_wait`. -/
def producerWaits (s : State α) : Prop := ∃ b ∈ s.blocked, b.2.2 = false

/-- Outside of these conditions lies what goes wrong: `await queue` (or `get_result`) taking an element, and cancelling a
producer that was woken and has not run. -/
def Wakes (s : State α) : Op α → Prop
  | .await _ | .getResult _ => s.results = []
  | .cancelSetter id => ∀ i x, Ready.setter i x (some true) ∈ s.ready → i ≠ id
  | _ => True

/-- Woken producers that have not run yet. -/
def granted (s : State α) : Nat :=
  (s.ready.filter fun | .setter _ _ (some true) => true | _ => false).length

/-- While a producer waits, the places in the queue are taken, or promised to woken producers. -/
def Full (n : Nat) (s : State α) : Prop :=
  s.lifo = false ∧ s.maxLength = some n ∧ (producerWaits s → n ≤ s.results.length + granted s)

theorem pollList_pending (l : List (Nat × α × Bool)) (h : ∃ b ∈ l, b.2.2 = false) :
    ∃ l' id x, pollList l = (l', some (id, x)) := by
  induction l with
  | nil => simp at h
  | cons b l ih =>
    obtain ⟨i, x, c⟩ := b
    cases c with
    | true =>
      obtain ⟨b, hb, hc⟩ := h
      rcases List.mem_cons.mp hb with rfl | hb
      · simp at hc
      · exact ih ⟨b, hb, hc⟩
    | false => exact ⟨l, i, x, rfl⟩

theorem pollList_sub (l : List (Nat × α × Bool)) : ∀ b ∈ (pollList l).1, b ∈ l := by
  induction l with
  | nil => simp [pollList]
  | cons b l ih =>
    obtain ⟨i, x, c⟩ := b
    cases c with
    | true => intro b hb; exact List.mem_cons_of_mem _ (ih b hb)
    | false => intro b hb; exact List.mem_cons_of_mem _ hb

/-- Polling promises one more place, if a producer waits. -/
theorem poll_granted (s : State α) (h : producerWaits s) : granted s.poll = granted s + 1 := by
  obtain ⟨l', id, x, e⟩ := pollList_pending s.blocked h
  simp [State.poll, e, granted]

theorem poll_waits (s : State α) (h : producerWaits s.poll) : producerWaits s := by
  obtain ⟨b, hb, hc⟩ := h
  have hs := pollList_sub s.blocked
  refine ⟨b, hs b ?_, hc⟩
  unfold State.poll at hb
  split at hb <;> rename_i e <;> rw [e] <;> exact hb

theorem full_keep {n : Nat} {s s' : State α} (h : Full n s) (h0 : s'.lifo = s.lifo) (h1 : s'.maxLength = s.maxLength)
    (h2 : s'.results = s.results) (h3 : granted s ≤ granted s') (h4 : producerWaits s' → producerWaits s) : Full n s' := by
  obtain ⟨a, b, c⟩ := h
  refine ⟨by rw [h0]; exact a, by rw [h1]; exact b, fun hw => ?_⟩
  have := c (h4 hw)
  rw [h2]; omega

theorem full_poll {n : Nat} {s : State α} (h : Full n s) : Full n s.poll := by
  refine full_keep h (by simp) (by simp) (by simp) ?_ (poll_waits s)
  unfold State.poll granted
  split <;> simp

/-- Taking one element and polling. -/
theorem full_take {n : Nat} {s : State α} (h : Full n s) (x : α) (l : List α) (ht : takeEnd true s.results = some (x, l)) :
    Full n ({ s with results := l } : State α).poll := by
  obtain ⟨a, b, c⟩ := h
  refine ⟨by simpa using a, by simpa using b, fun hw => ?_⟩
  have hw' := poll_waits _ hw
  rw [poll_granted _ hw']
  have hc := c hw'
  rcases takeEnd_some ht with ⟨_, e⟩ | ⟨e, _⟩
  · rw [e] at hc
    simp only [List.length_cons, poll_results, granted] at hc ⊢
    omega
  · simp at e

theorem full_put {n : Nat} {s : State α} (h : Full n s) (x : α) : Full n (s.put x).1 := by
  unfold State.put
  split
  · split
    · exact full_keep h rfl rfl rfl (Nat.le_refl _) id
    · exact full_keep h rfl rfl rfl (by simp [granted, State.completeWaiter]) id
  · split
    · rename_i hr
      simp only [room_append s x hr]
      obtain ⟨a, b, c⟩ := h
      exact ⟨a, b, fun hw => by have := c hw; simp only [List.length_append, granted] at this ⊢; omega⟩
    · exact h

theorem full_wait {n : Nat} {s : State α} (h : Full n s) (id : Nat) (k : Kind) : Full n (s.wait id k).1 := by
  unfold State.wait
  split
  · split
    · exact full_poll h
    · exact h
  · exact full_keep h rfl rfl rfl (Nat.le_refl _) (fun h => h)
  · exact full_keep h rfl rfl rfl (Nat.le_refl _) (fun h => h)

theorem step_full (n : Nat) (s : State α) (op : Op α) (h : Full n s) (hw : Wakes s op) : Full n (s.step op).1 := by
  have hl := h.1
  have hawait : ∀ id, s.results = [] → Full n (s.awaitOf true id).1 := by
    intro id hr
    unfold State.awaitOf
    rw [hr]
    simp only [takeEnd, if_true]
    split
    · exact h
    · exact full_wait h _ _
  cases op with
  | put x => exact full_put h x
  | putWait id x =>
    simp only [State.step, State.putWait]
    split
    · exact full_put h x
    · split
      · exact full_put h x
      · rename_i hr
        obtain ⟨a, b, c⟩ := h
        refine ⟨a, b, fun _ => ?_⟩
        simp only [State.hasRoom, b, decide_eq_true_eq] at hr
        simp only
        omega
  | setException e =>
    simp only [State.step, State.setException]
    obtain ⟨a, b, c⟩ := h
    split
    · split
      · exact ⟨a, b, fun ⟨_, h, _⟩ => by simp at h⟩
      · exact ⟨a, b, fun ⟨_, h, _⟩ => by simp at h⟩
    · exact ⟨a, b, fun ⟨_, h, _⟩ => by simp at h⟩
  | await id => simp only [State.step, hl, Bool.not_false]; exact hawait id hw
  | getResult id => exact hawait id hw
  | next id =>
    simp only [State.step, State.next, hl, Bool.not_false]
    split
    · rename_i x l ht
      have := full_take h x l ht
      rw [hl] at this
      simpa using this
    · split
      · exact h
      · exact h
      · exact full_wait h _ _
  | getResultNoWait =>
    simp only [State.step, State.getResultNoWait, hl, Bool.not_false]
    split
    · rename_i x l ht
      have := full_take h x l ht
      rw [hl] at this
      simpa using this
    · split
      · exact h
      · exact h
  | cancelGetter id =>
    simp only [State.step, State.cancelGetter]
    split
    · exact full_keep h rfl rfl rfl (by simp [granted]) (fun h => h)
    · refine full_keep h rfl rfl rfl (Nat.le_of_eq ?_) (fun h => h)
      simp only [granted]
      generalize s.ready = l
      induction l with
      | nil => rfl
      | cons r l ih =>
        cases r with
        | getter i k o => unfold cancelReady; split <;> simp_all
        | setter i x o => cases o with
          | none => simpa [cancelReady] using ih
          | some b => cases b <;> simpa [cancelReady] using ih
  | cancelSetter id =>
    simp only [State.step, State.cancelSetter]
    split
    · refine full_keep h rfl rfl rfl (by simp [granted]) ?_
      rintro ⟨b, hb, hc⟩
      obtain ⟨b', hb', rfl⟩ := List.mem_map.mp hb
      split at hc
      · simp at hc
      · exact ⟨b', hb', hc⟩
    · refine full_keep h rfl rfl rfl (Nat.le_of_eq ?_) (fun h => h)
      have hw' : ∀ i x, Ready.setter i x (some true) ∈ s.ready → i ≠ id := hw
      simp only [granted]
      revert hw'
      generalize s.ready = l
      intro hw'
      induction l with
      | nil => rfl
      | cons r l ih =>
        have ih := ih (fun i x h => hw' i x (List.mem_cons_of_mem _ h))
        cases r with
        | getter i k o => simpa using ih
        | setter i x o =>
          by_cases hi : i = id
          · cases o with
            | none => simpa [hi] using ih
            | some b => cases b with
              | false => simpa [hi] using ih
              | true => exact absurd hi (hw' i x (by simp))
          · cases o with
            | none => simpa [hi] using ih
            | some b => cases b <;> simpa [hi] using ih
  | run =>
    simp only [State.step, State.run]
    split
    · exact h
    · rename_i i k o ready hr
      have key : Full n { s with ready := ready } :=
        full_keep h rfl rfl rfl (by simp [granted, hr]) (fun h => h)
      simp only
      split
      · exact full_poll key
      · exact key
    · rename_i i x ready hr
      obtain ⟨a, b, c⟩ := h
      refine ⟨a, b, fun hwt => ?_⟩
      have := c hwt
      simp only [granted, hr, List.filter_cons, if_true, List.length_cons, append, b, List.length_drop, List.length_append,
        List.length_nil] at this ⊢
      omega
    · rename_i i x ready hr
      exact full_keep h rfl rfl rfl (by simp [granted, hr]) (fun h => h)
    · rename_i i x ready hr
      refine full_keep h rfl rfl rfl (by simp [granted, hr]) ?_
      rintro ⟨b, hb, hc⟩
      exact ⟨b, List.mem_of_mem_eraseP hb, hc⟩

/-- C20, for histories in which elements are taken by `async for` or `get_result_no_wait`, and no producer is cancelled between
being woken and running: once everything resumed has run, a producer waits only while the queue is full. -/
theorem C20_waits_only_when_full_partial (n : Nat) (ops : List (Op α)) (h : Always Wakes { maxLength := some n } ops)
    (hr : (({ maxLength := some n } : State α).runAll ops).ready = [])
    (hw : producerWaits (({ maxLength := some n } : State α).runAll ops)) :
    (({ maxLength := some n } : State α).runAll ops).hasRoom = false := by
  have gen : ∀ (ops : List (Op α)) (s : State α), Full n s → Always Wakes s ops → Full n (s.runAll ops) := by
    intro ops
    induction ops with
    | nil => intro s h _; exact h
    | cons op ops ih => intro s h ha; exact ih _ (step_full n s op h ha.1) ha.2
  obtain ⟨_, b, c⟩ := gen ops _ ⟨rfl, rfl, fun ⟨_, h, _⟩ => by simp at h⟩ h
  have := c hw
  simp only [granted, hr, List.filter_nil, List.length_nil] at this
  simp only [State.hasRoom, b, decide_eq_false_iff_not]
  omega

/-- C20, one step: taking an element with `get_result_no_wait` wakes the producer that has waited longest. -/
theorem C20_no_wait_wakes_partial (s : State α) (hl : s.lifo = false) (x : α) (l : List α) (hr : s.results = x :: l) (id : Nat) (y : α)
    (b : List (Nat × α × Bool)) (hb : s.blocked = (id, y, false) :: b) :
    s.getResultNoWait.2 = .got x ∧ s.getResultNoWait.1.ready = s.ready ++ [.setter id y (some true)] ∧
    s.getResultNoWait.1.blocked = b := by
  simp [State.getResultNoWait, hl, hr, takeEnd, State.poll, hb, pollList]

/-- Instance: two producers wait; taking twice by `async for` lets both in. -/
example : trace ({ maxLength := some 1 } : State Nat) [.put 1, .putWait 0 2, .putWait 1 3, .next 0, .run, .next 0, .run, .next 0] =
    [(.put 1, .putReturned 1 0), (.putWait 0 2, .suspended), (.putWait 1 3, .suspended), (.next 0, .got 1),
     (.run, .putReturned 2 2), (.next 0, .got 2), (.run, .putReturned 3 2), (.next 0, .got 3)] := by decide

/-- C20 does not hold for `await queue`: the element is taken, the producer is not woken; the next consumer waits as well:
both wait for each other, the queue is empty, and nothing is left to run. -/
theorem C20_await_deadlock_violated :
    let s := ({ maxLength := some 1 } : State Nat).runAll [.put 1, .putWait 0 2, .await 1, .await 2]
    s.results = [] ∧ s.blocked = [(0, 2, false)] ∧ s.waiting = [(2, .await)] ∧ s.ready.length = 0 := by
  decide

/-- C20 does not hold for `AsyncLifoQueue`: it never wakes producers. -/
theorem C20_lifo_violated :
    let s := ({ lifo := true, maxLength := some 1 } : State Nat).runAll [.put 1, .putWait 0 2, .getResultNoWait, .next 1]
    s.results = [] ∧ s.blocked = [(0, 2, false)] ∧ s.waiting = [(1, .next)] ∧ s.ready.length = 0 := by
  decide

/-- C20 does not hold when a woken producer is cancelled before it runs: the other producer waits although there is room. -/
theorem C20_cancelled_producer_violated :
    let s := ({ maxLength := some 1 } : State Nat).runAll [.put 1, .putWait 0 2, .putWait 1 3, .getResultNoWait, .cancelSetter 0, .run]
    s.results = [] ∧ s.blocked = [(1, 3, false)] ∧ s.ready.length = 0 := by
  decide

/-! ### C21 -/

/-- A stack with at most `m` elements, top first. `none`: the operation is not one of a stack, or would wait. -/
def stackStep (m : Option Nat) (st : List α) : Op α → Option (List α × Out α)
  | .put x => if m.any (st.length ≥ ·) then some (st, .putReturned x 1) else some (x :: st, .putReturned x 0)
  | .await _ | .next _ => match st with
    | [] => none
    | x :: st => some (st, .got x)
  | .getResultNoWait => match st with
    | [] => some ([], .indexError)
    | x :: st => some (st, .got x)
  | _ => none

/-- What a stack returns. -/
def stackOuts (m : Option Nat) (st : List α) : List (Op α) → Option (List (Out α))
  | [] => some []
  | op :: ops => match stackStep m st op with
    | none => none
    | some (st, o) => (stackOuts m st ops).map (o :: ·)

theorem stack_step (m : Option Nat) (s : State α) (op : Op α) (st' : List α) (o : Out α)
    (h1 : s.lifo = true) (h2 : s.maxLength = m) (h3 : s.waiter = none) (h4 : s.exception = none)
    (h : stackStep m s.results.reverse op = some (st', o)) :
    (s.step op).2 = o ∧ (s.step op).1 = { s with results := st'.reverse } := by
  have hget : ∀ x l, s.results.reverse = x :: l → takeEnd false s.results = some (x, l.reverse) := by
    intro x l hr
    have e : s.results = l.reverse ++ [x] := by
      rw [← List.reverse_reverse s.results, hr, List.reverse_cons]
    simp [takeEnd, e]
  cases op with
  | put x =>
    simp only [stackStep, List.length_reverse] at h
    simp only [State.step, State.put, h3]
    have hroom : s.hasRoom = !(m.any (decide <| s.results.length ≥ ·)) := by
      unfold State.hasRoom
      rw [h2]
      cases m with
      | none => rfl
      | some n =>
        simp only [Option.any_some]
        by_cases hn : s.results.length < n
        · simp [hn, Nat.not_le.mpr hn]
        · simp [hn, Nat.not_lt.mp hn]
    cases hm : m.any (decide <| s.results.length ≥ ·) with
    | true =>
      rw [hm] at hroom h
      simp only [Bool.not_true] at hroom
      simp only [if_true, Option.some.injEq, Prod.mk.injEq] at h
      rw [← h.1]
      simp [hroom, h.2]
      rw [← h3]
    | false =>
      rw [hm] at hroom h
      simp only [Bool.not_false] at hroom
      simp only [Bool.false_eq_true, if_false, Option.some.injEq, Prod.mk.injEq] at h
      rw [if_pos hroom, room_append s x hroom, ← h.1]
      refine ⟨h.2, ?_⟩
      simp
  | await id =>
    simp only [stackStep] at h
    split at h
    · cases h
    · rename_i x l hr
      simp only [Option.some.injEq, Prod.mk.injEq] at h
      simp [State.step, State.awaitOf, h1, hget x l hr, h.1, h.2]
  | next id =>
    simp only [stackStep] at h
    split at h
    · cases h
    · rename_i x l hr
      simp only [Option.some.injEq, Prod.mk.injEq] at h
      simp [State.step, State.next, h1, hget x l hr, h.1, h.2]
  | getResultNoWait =>
    simp only [stackStep] at h
    split at h
    · rename_i hr
      simp only [Option.some.injEq, Prod.mk.injEq] at h
      have hr' : s.results = [] := List.reverse_eq_nil_iff.mp hr
      have e : takeEnd false s.results = none := by simp [takeEnd, hr']
      simp only [State.step, State.getResultNoWait, h1, Bool.not_true, e, h4]
      refine ⟨h.2, ?_⟩
      rw [← h.1]; cases s; simp_all
    · rename_i x l hr
      simp only [Option.some.injEq, Prod.mk.injEq] at h
      simp [State.step, State.getResultNoWait, h1, hget x l hr, h.1, h.2]
  | _ => simp [stackStep] at h

/-- C21, for `await queue`, `async for` and `get_result_no_wait`: in every history of puts and retrievals in which no consumer
has to wait, the queue answers like a stack. -/
theorem C21_lifo_is_stack_partial (m : Option Nat) (ops : List (Op α)) (outs : List (Out α)) (h : stackOuts m [] ops = some outs) :
    (trace { lifo := true, maxLength := m } ops).map (·.2) = outs := by
  have gen : ∀ (ops : List (Op α)) (s : State α) (outs : List (Out α)), s.lifo = true → s.maxLength = m → s.waiter = none →
      s.exception = none → stackOuts m s.results.reverse ops = some outs → (trace s ops).map (·.2) = outs := by
    intro ops
    induction ops with
    | nil => intro s outs _ _ _ _ h; simp only [stackOuts, Option.some.injEq] at h; rw [← h]; rfl
    | cons op ops ih =>
      intro s outs h1 h2 h3 h4 h
      simp only [stackOuts] at h
      split at h
      · cases h
      · rename_i st' o hst
        obtain ⟨e1, e2⟩ := stack_step m s op st' o h1 h2 h3 h4 hst
        cases hrest : stackOuts m st' ops with
        | none => rw [hrest] at h; simp at h
        | some rest =>
          rw [hrest] at h
          simp only [Option.map_some, Option.some.injEq] at h
          have := ih (s.step op).1 rest (by rw [e2]; exact h1) (by rw [e2]; exact h2) (by rw [e2]; exact h3)
            (by rw [e2]; exact h4) (by rw [e2]; simpa using hrest)
          simp only [trace, List.map_cons, e1, this, h]
  exact gen ops _ outs rfl rfl rfl rfl h

example : stackOuts none [] [.put 1, .put 2, .await 0, .put 3, .next 1, .getResultNoWait] =
    some [.putReturned 1 0, .putReturned 2 0, .got 2, .putReturned 3 0, .got 3, Out.got 1] := by decide

/-- C21 does not hold for `get_result`: it is inherited from the FIFO queue and returns the oldest element. -/
theorem C21_get_result_violated :
    trace ({ lifo := true } : State Nat) [.put 1, .put 2, .getResult 0] =
      [(.put 1, .putReturned 1 0), (.put 2, .putReturned 2 0), (.getResult 0, .got 1)] := by decide

end Verif.AsyncQueue
