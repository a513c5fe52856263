/-
Properties C197, C198: the conditions of the asyncio extension.
-/
import Verif.Asyncio.Condition
import Verif.Lock.Props

namespace Verif.Asyncio.Cond

/-! ### C197: one at a time -/

/-- A call of `wait` which is cancelled while it takes the lock again releases the lock for
somebody else: then two hold it. -/
theorem C197_two_holders_violated :
    (run C.new [.acquire, .wait 0, .acquire, .notify 1, .wake 0, .acquire, .cancel 2, .run, .run]).lock.holders = [1, 3] := by
  decide

/-- Nothing of the lock is cancelled. -/
structure Calm (s : Lock.State) : Prop where
  inv : Lock.Inv s
  one : s.size = 1
  q : ∀ f ∈ s.q, f.cancelled = false
  ready : ∀ p ∈ s.ready, p.2 = true

theorem wake_calm_ready {s : Lock.State} (h : ∀ p ∈ s.ready, p.2 = true) (f : Nat) : ∀ p ∈ (s.wake f true).ready, p.2 = true := by
  intro p hp
  simp only [Lock.State.wake] at hp
  rcases List.mem_append.1 hp with hp | hp
  · exact h p hp
  · obtain ⟨w, _, e⟩ := List.mem_map.1 hp
    rw [← e]

theorem acquire_calm {s : Lock.State} (h : Calm s) : Calm s.acquire.1 := by
  refine ⟨(Lock.step_inv 0 s h.inv .acquire).1, (Lock.step_size s .acquire).trans h.one, ?_, ?_⟩
  · have hq : ∀ f ∈ s.q ++ [({ id := s.next } : Lock.Fut)], f.cancelled = false := by
      intro f hf
      rcases List.mem_append.1 hf with hf | hf
      · exact h.q f hf
      · simp at hf; subst hf; rfl
    simp only [Lock.State.acquire]
    split
    · split
      · exact hq
      · next f hf =>
        split
        · next hc =>
          have := hq f (List.mem_of_getElem? hf)
          rw [this] at hc; exact absurd hc nofun
        · exact hq
    · exact hq
  · simp only [Lock.State.acquire]
    split
    · split
      · exact h.ready
      · split <;> exact h.ready
    · exact h.ready

theorem release_calm {s : Lock.State} (h : Calm s) (x : Nat) : Calm (s.release x).1 := by
  refine ⟨(Lock.step_inv 0 s h.inv (.release x)).1, (Lock.step_size s (.release x)).trans h.one, ?_, ?_⟩
  · simp only [Lock.State.release]
    split
    · split
      · exact h.q
      · next f q hq =>
        have hq' : ∀ g ∈ q, g.cancelled = false := fun g hg => h.q g (by rw [hq]; simp [hg])
        split <;> exact hq'
    · exact h.q
  · simp only [Lock.State.release]
    split
    · split
      · exact h.ready
      · split
        · exact h.ready
        · exact wake_calm_ready h.ready _
    · exact h.ready

theorem run_calm {s : Lock.State} (h : Calm s) : Calm s.run.1 ∧ ∀ id, s.run.2 ≠ .cancelledError id := by
  refine ⟨⟨(Lock.step_inv 0 s h.inv .run).1, (Lock.step_size s .run).trans h.one, ?_, ?_⟩, ?_⟩
  all_goals
    simp only [Lock.State.run]
    split
  · exact h.q
  · exact h.q
  · next w r hr => exact absurd (h.ready (w, false) (by rw [hr]; simp)) nofun
  · exact h.ready
  · next w r hr => exact fun p hp => h.ready p (by rw [hr]; simp [hp])
  · next w r hr => exact absurd (h.ready (w, false) (by rw [hr]; simp)) nofun
  · exact fun _ => nofun
  · exact fun _ => nofun
  · next w r hr => exact absurd (h.ready (w, false) (by rw [hr]; simp)) nofun

/-- If no task is cancelled while it waits for the lock, at most one holds it; tasks may be
cancelled while they wait to be notified. -/
theorem C197_one_holder_partial (l : List Op) (hl : ∀ id, .cancel id ∉ l) : (run C.new l).lock.holders.length ≤ 1 := by
  have key : ∀ (l : List Op) (c : C), (∀ id, .cancel id ∉ l) → Calm c.lock → Calm (run c l).lock := by
    intro l
    induction l with
    | nil => intro c _ h; exact h
    | cons o l ih =>
      intro c hl h
      refine ih _ (fun id hx => hl id (by simp [hx])) ?_
      cases o with
      | acquire => exact acquire_calm h
      | release x => exact release_calm h x
      | wait x =>
        simp only [step]
        split
        · exact release_calm h x
        · exact h
      | notify n => simp only [step, C.notify]; split <;> exact h
      | notifyAll => simp only [step, C.notify]; split <;> exact h
      | wake i =>
        simp only [step]
        split
        · exact acquire_calm h
        · exact h
      | cancelWait i => exact h
      | cancel id => exact absurd (by simp) (hl id)
      | run =>
        obtain ⟨h1, h2⟩ := run_calm h
        have e : (step c .run).lock = c.lock.run.1 := by
          rcases hr : c.lock.run with ⟨lock, o⟩
          simp only [step, hr]
          cases o with
          | cancelledError id => exact absurd (by rw [hr]) (h2 id)
          | _ => rfl
        rw [e]
        exact h1
  have h := key l C.new hl ⟨Lock.inv_init 1 (by decide), rfl, nofun, nofun⟩
  have := h.inv.cnt1
  rw [h.one] at this
  omega

/-! ### C198: notifying -/

theorem notifyLoop_spec (l : List (Nat × Bool)) : ∀ n,
    (((notifyLoop n l).1.filter (fun w => !w.2)).map (·.1) = ((l.filter (fun w => !w.2)).map (·.1)).drop n ∧
    (notifyLoop n l).2 = ((l.filter (fun w => !w.2)).map (·.1)).take n) ∧
    (notifyLoop n l).1.map (·.1) = l.map (·.1) := by
  induction l with
  | nil => intro n; cases n <;> simp [notifyLoop]
  | cons w l ih =>
    intro n
    obtain ⟨i, b⟩ := w
    cases n with
    | zero => simp [notifyLoop]
    | succ n =>
      cases b with
      | true =>
        obtain ⟨⟨h1, h2⟩, h3⟩ := ih (n + 1)
        refine ⟨⟨?_, ?_⟩, ?_⟩
        · simpa [notifyLoop] using h1
        · simpa [notifyLoop] using h2
        · simpa [notifyLoop] using h3
      | false =>
        obtain ⟨⟨h1, h2⟩, h3⟩ := ih n
        refine ⟨⟨?_, ?_⟩, ?_⟩
        · simpa [notifyLoop] using h1
        · simpa [notifyLoop] using h2
        · simpa [notifyLoop] using h3

/-- Notifying so many wakes so many of those who wait, those who wait longest, in their order;
or all if there are fewer. It does nothing if the lock is not held. -/
theorem C198_notify (c : C) (n : Nat) (h : c.lock.isLocked = true) :
    (step c (.notify n)).notified = c.notified ++ c.pending.take n ∧ (step c (.notify n)).pending = c.pending.drop n ∧
      (step c (.notify n)).lock = c.lock := by
  have hs := notifyLoop_spec c.waiters n
  simp only [step, C.notify, if_pos h]
  exact ⟨by rw [hs.1.2]; rfl, hs.1.1, trivial⟩

/-- Notifying all wakes all of those who wait. -/
theorem C198_notify_all (c : C) (h : c.lock.isLocked = true) :
    (step c .notifyAll).notified = c.notified ++ c.pending ∧ (step c .notifyAll).pending = [] := by
  have hs := notifyLoop_spec c.waiters c.waiters.length
  have hl : c.pending.length ≤ c.waiters.length := by
    simp only [C.pending, List.length_map]; exact List.length_filter_le _ _
  simp only [step, C.notify, if_pos h]
  refine ⟨?_, ?_⟩
  · rw [hs.1.2]
    show c.notified ++ c.pending.take c.waiters.length = _
    rw [List.take_of_length_le hl]
  · show ((notifyLoop c.waiters.length c.waiters).1.filter (fun w => !w.2)).map (·.1) = []
    rw [hs.1.1]
    show c.pending.drop c.waiters.length = []
    exact List.drop_eq_nil_of_le hl

/-- Nobody is notified twice, and those who wait are notified in the order in which they began to wait. -/
theorem C198_in_order (l : List Op) : ((run C.new l).notified ++ (run C.new l).pending).Pairwise (· < ·) := by
  have key : ∀ (l : List Op) (c : C), (c.notified ++ c.pending).Pairwise (· < ·) → (∀ i ∈ c.notified ++ c.pending, i < c.next) →
      ((run c l).notified ++ (run c l).pending).Pairwise (· < ·) := by
    intro l
    induction l with
    | nil => intro c h _; exact h
    | cons o l ih =>
      intro c h hn
      have frame : (step c o).notified = c.notified → (step c o).pending.Sublist c.pending → (step c o).next = c.next →
          ((run c (o :: l)).notified ++ (run c (o :: l)).pending).Pairwise (· < ·) := by
        intro h1 h2 h3
        have hsub : (c.notified ++ (step c o).pending).Sublist (c.notified ++ c.pending) :=
          List.Sublist.append (List.Sublist.refl _) h2
        refine ih (step c o) ?_ ?_
        · rw [h1]; exact h.sublist hsub
        · rw [h1, h3]; exact fun i hi => hn i (hsub.subset hi)
      have same : (step c o).notified = c.notified → (step c o).waiters = c.waiters → (step c o).next = c.next →
          ((run c (o :: l)).notified ++ (run c (o :: l)).pending).Pairwise (· < ·) := by
        intro h1 h2 h3
        exact frame h1 (by simp only [C.pending, h2]; exact List.Sublist.refl _) h3
      have noti : ∀ n, (∀ x, step c o = x → x = c.notify n) →
          ((run c (o :: l)).notified ++ (run c (o :: l)).pending).Pairwise (· < ·) := by
        intro n he
        have he := he _ rfl
        refine ih (step c o) ?_ ?_
        all_goals
          rw [he]
          have hs := notifyLoop_spec c.waiters n
          simp only [C.notify]
          split
        · show ((c.notified ++ (notifyLoop n c.waiters).2) ++ ((notifyLoop n c.waiters).1.filter (fun w => !w.2)).map (·.1)).Pairwise _
          rw [hs.1.2, hs.1.1, List.append_assoc, List.take_append_drop]
          exact h
        · exact h
        · show ∀ i ∈ (c.notified ++ (notifyLoop n c.waiters).2) ++ ((notifyLoop n c.waiters).1.filter (fun w => !w.2)).map (·.1), _
          rw [hs.1.2, hs.1.1, List.append_assoc, List.take_append_drop]
          exact hn
        · exact hn
      cases o with
      | acquire => exact same rfl rfl rfl
      | release x => exact same rfl rfl rfl
      | wait x =>
        by_cases hx : x ∈ c.lock.holders
        · refine ih (step c (.wait x)) ?_ ?_
          all_goals simp only [step, if_pos hx]
          · show (c.notified ++ ((c.waiters ++ [(c.next, false)]).filter (fun w => !w.2)).map (·.1)).Pairwise _
            have e : ((c.waiters ++ [(c.next, false)]).filter (fun w => !w.2)).map (·.1) = c.pending ++ [c.next] := by
              simp [C.pending, List.filter_append]
            rw [e, ← List.append_assoc]
            refine List.pairwise_append.2 ⟨h, by simp, ?_⟩
            intro a ha b hb
            simp at hb; subst hb
            exact hn a ha
          · show ∀ i ∈ c.notified ++ ((c.waiters ++ [(c.next, false)]).filter (fun w => !w.2)).map (·.1), i < c.next + 1
            have e : ((c.waiters ++ [(c.next, false)]).filter (fun w => !w.2)).map (·.1) = c.pending ++ [c.next] := by
              simp [C.pending, List.filter_append]
            rw [e, ← List.append_assoc]
            intro i hi
            rcases List.mem_append.1 hi with hi | hi
            · exact Nat.lt_succ_of_lt (hn i hi)
            · simp at hi; omega
        · refine same ?_ ?_ ?_ <;> simp only [step, if_neg hx]
      | notify n => exact noti n (fun x e => e.symm)
      | notifyAll => exact noti _ (fun x e => e.symm)
      | wake i =>
        by_cases hx : (i, true) ∈ c.waiters
        · refine frame ?_ ?_ ?_
          all_goals simp only [step, if_pos hx]
          exact (List.Sublist.filter _ List.erase_sublist).map _
        · refine same ?_ ?_ ?_ <;> simp only [step, if_neg hx]
      | cancelWait i =>
        refine frame rfl ?_ rfl
        simp only [step, C.pending]
        generalize c.waiters = ws
        induction ws with
        | nil => exact List.Sublist.refl _
        | cons w ws ihw =>
          obtain ⟨j, b⟩ := w
          by_cases hw : (j, b) = (i, false)
          · obtain ⟨rfl, rfl⟩ := Prod.mk.inj hw
            simpa using List.Sublist.cons _ ihw
          · simp only [List.map_cons, if_neg hw, List.filter_cons]
            cases b with
            | true => simpa using ihw
            | false => simpa using List.Sublist.cons_cons j ihw
      | cancel id => exact same rfl rfl rfl
      | run =>
        have hf : ∀ d : C, d.failed.notified = d.notified ∧ d.failed.waiters = d.waiters ∧ d.failed.next = d.next := by
          intro d
          unfold C.failed
          simp only
          split
          · exact ⟨rfl, rfl, rfl⟩
          · split <;> exact ⟨rfl, rfl, rfl⟩
        refine same ?_ ?_ ?_
        all_goals
          simp only [step]
          split
          · split
            · simp only [hf]
            · rfl
          · rfl
  exact key l C.new List.Pairwise.nil nofun

/-! ### Examples -/

-- C197: two wait, both are notified, both take the lock again one after the other
example : (run C.new [.acquire, .wait 0, .acquire, .wait 1, .acquire, .notifyAll, .release 2, .wake 0, .wake 1]).lock.holders
    = [3] := by decide

example : (run C.new [.acquire, .wait 0, .acquire, .wait 1, .acquire, .notifyAll, .release 2, .wake 0, .wake 1, .release 3,
    .run]).lock.holders = [4] := by decide

-- C198
example : (run C.new [.acquire, .wait 0, .acquire, .wait 1, .acquire, .wait 2, .acquire, .cancelWait 0, .notify 1]).notified
    = [1] := by decide

end Verif.Asyncio.Cond
