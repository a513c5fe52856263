import Verif.Lock.Lemmas

/-! C15–C17: mutual exclusion, arrival order and cancellation of `Lock` (`size = 1`) and `ScarletLock`. -/
namespace Verif.Lock

/-! ### specification: what is seen from outside -/

/-- What the operations of a history returned. -/
def trace (s : State) : List Op → List (Op × Out)
  | [] => []
  | op :: ops => (op, (s.step op).2) :: trace (s.step op).1 ops

def heldStep (hs : List Nat) : Op × Out → List Nat
  | (_, .acquired id) => hs ++ [id]
  | (.release h, .unit) => hs.erase h
  | _ => hs

/-- The calls that obtained the lock and did not release it yet. -/
def held (tr : List (Op × Out)) : List Nat := tr.foldl heldStep []

/-- The calls that had to wait and then obtained the lock, in the order in which they obtained it. -/
def obtainedAfterWaiting (tr : List (Op × Out)) : List Nat :=
  tr.filterMap fun
    | (.run, .acquired id) => some id
    | _ => none

/-- The numbers of the `acquire` calls, in the order in which they were made. -/
def asked (tr : List (Op × Out)) : List Nat :=
  tr.filterMap fun
    | (.acquire, .acquired id) => some id
    | (.acquire, .suspended id) => some id
    | (.acquire, .cancelledError id) => some id
    | _ => none

/-! ### helpers -/

theorem step_inv (k : Nat) (s : State) (h : Inv s) (op : Op) : Inv (s.step op).1 ∧ (s.step op).2 ≠ .indexError := by
  cases op with
  | acquire => exact ⟨(acquire_inv k s h).1, (acquire_inv k s h).2.2⟩
  | release x => exact ⟨(release_inv k s h x).1, (release_inv k s h x).2.1⟩
  | cancel x => exact ⟨(cancel_inv k s h x).1, by simp [State.step]⟩
  | disturb x => exact ⟨(cancelFut_inv k s h x).1, by simp [State.step]⟩
  | run =>
    refine ⟨(run_inv k s h).1, ?_⟩
    simp only [State.step, State.run]
    split <;> simp

theorem runAll_inv (ops : List Op) : ∀ (s : State), Inv s → Inv (s.runAll ops) := by
  induction ops with
  | nil => intro s h; exact h
  | cons op ops ih => intro s h; exact ih _ (step_inv 0 s h op).1

theorem step_size (s : State) (op : Op) : (s.step op).1.size = s.size := by
  cases op with
  | acquire =>
    simp only [State.step, State.acquire]
    split
    · split
      · rfl
      · split <;> rfl
    · rfl
  | release x =>
    simp only [State.step, State.release]
    split
    · split
      · rfl
      · split <;> rfl
    · rfl
  | cancel x =>
    simp only [State.step, State.cancel]
    split
    · simp only [State.cancelFut]; split <;> rfl
    · rfl
  | disturb x => simp only [State.step, State.cancelFut]; split <;> rfl
  | run => simp only [State.step, State.run]; split <;> rfl

theorem runAll_size (ops : List Op) : ∀ (s : State), (s.runAll ops).size = s.size := by
  induction ops with
  | nil => intro s; rfl
  | cons op ops ih => intro s; exact (ih _).trans (step_size s op)

theorem step_holders (s : State) (op : Op) : (s.step op).1.holders = heldStep s.holders (op, (s.step op).2) := by
  cases op with
  | acquire =>
    simp only [State.step, State.acquire]
    split
    · split
      · rfl
      · split <;> rfl
    · rfl
  | release x =>
    simp only [State.step, State.release]
    split
    · split
      · rfl
      · split <;> rfl
    · rfl
  | cancel x =>
    simp only [State.step, State.cancel]
    split
    · simp only [State.cancelFut]; split <;> rfl
    · rfl
  | disturb x => simp only [State.step, State.cancelFut]; split <;> rfl
  | run => simp only [State.step, State.run]; split <;> rfl

theorem trace_holders (ops : List Op) : ∀ (s : State), (trace s ops).foldl heldStep s.holders = (s.runAll ops).holders := by
  induction ops with
  | nil => intro s; rfl
  | cons op ops ih =>
    intro s
    simp only [trace, List.foldl_cons]
    rw [← step_holders]; exact ih _

/-- The part of `obtainedAfterWaiting` one operation adds. -/
theorem step_served (s : State) (op : Op) :
    (s.step op).1.served = s.served ++ obtainedAfterWaiting [(op, (s.step op).2)] := by
  cases op with
  | acquire =>
    simp only [State.step, State.acquire]
    split
    · split
      · simp [obtainedAfterWaiting]
      · split <;> simp [obtainedAfterWaiting]
    · simp [obtainedAfterWaiting]
  | release x =>
    simp only [State.step, State.release]
    split
    · split
      · simp [obtainedAfterWaiting]
      · split <;> simp [obtainedAfterWaiting, State.wake]
    · simp [obtainedAfterWaiting]
  | cancel x =>
    simp only [State.step, State.cancel]
    split
    · simp only [State.cancelFut]; split <;> simp [obtainedAfterWaiting, State.wake]
    · simp [obtainedAfterWaiting]
  | disturb x => simp only [State.step, State.cancelFut]; split <;> simp [obtainedAfterWaiting, State.wake]
  | run => simp only [State.step, State.run]; split <;> simp [obtainedAfterWaiting]

theorem trace_served (ops : List Op) : ∀ (s : State), s.served ++ obtainedAfterWaiting (trace s ops) = (s.runAll ops).served := by
  induction ops with
  | nil => intro s; simp [trace, obtainedAfterWaiting, State.runAll]
  | cons op ops ih =>
    intro s
    have h := ih (s.step op).1
    rw [step_served, List.append_assoc] at h
    have e : obtainedAfterWaiting (trace s (op :: ops)) =
        obtainedAfterWaiting [(op, (s.step op).2)] ++ obtainedAfterWaiting (trace (s.step op).1 ops) := by
      rw [obtainedAfterWaiting, obtainedAfterWaiting, obtainedAfterWaiting, ← List.filterMap_append]; rfl
    rw [e]; exact h

theorem step_next (k : Nat) (s : State) (h : Inv s) (op : Op) :
    asked [(op, (s.step op).2)] = List.range' s.next ((s.step op).1.next - s.next) ∧ s.next ≤ (s.step op).1.next := by
  have hi := (step_inv k s h op).2
  cases op with
  | acquire =>
    simp only [State.step, State.acquire] at hi ⊢
    split
    · rename_i hgt
      rw [if_pos hgt] at hi
      split
      · rename_i hn
        rw [hn] at hi; simp at hi
      · split <;> simp [asked, Nat.add_sub_cancel_left]
    · simp [asked, Nat.add_sub_cancel_left]
  | release x =>
    simp only [State.step, State.release]
    split
    · split
      · simp [asked]
      · split <;> simp [asked, State.wake]
    · simp [asked]
  | cancel x =>
    simp only [State.step, State.cancel]
    split
    · simp only [State.cancelFut]; split <;> simp [asked, State.wake]
    · simp [asked]
  | disturb x => simp only [State.step, State.cancelFut]; split <;> simp [asked, State.wake]
  | run => simp only [State.step, State.run]; split <;> simp [asked]

theorem trace_asked (ops : List Op) : ∀ (s : State), Inv s →
    asked (trace s ops) = List.range' s.next ((s.runAll ops).next - s.next) ∧ s.next ≤ (s.runAll ops).next := by
  induction ops with
  | nil => intro s _; simp [trace, asked, State.runAll]
  | cons op ops ih =>
    intro s hs
    obtain ⟨h1, h1'⟩ := step_next 0 s hs op
    obtain ⟨h2, h2'⟩ := ih _ (step_inv 0 s hs op).1
    have er : s.runAll (op :: ops) = (s.step op).1.runAll ops := rfl
    rw [er]
    have e : asked (trace s (op :: ops)) = asked [(op, (s.step op).2)] ++ asked (trace (s.step op).1 ops) := by
      rw [asked, asked, asked, ← List.filterMap_append]; rfl
    refine ⟨?_, by omega⟩
    rw [e, h1, h2]
    have e2 : (s.step op).1.next = s.next + 1 * ((s.step op).1.next - s.next) := by omega
    generalize (s.step op).1.next - s.next = a at e2 ⊢
    rw [e2, Nat.one_mul, List.range'_append_1]
    congr 1; omega

/-! ### C15 -/

/-- C15. In every history of acquiring, releasing, cancelling and loop steps at most `size` calls hold the lock. -/
theorem C15_at_most_size_holders (size : Nat) (hs : 0 < size) (ops : List Op) :
    (held (trace { size := size } ops)).length ≤ size := by
  have h := runAll_inv ops _ (inv_init size hs)
  have e := trace_holders ops { size := size }
  have hz := runAll_size ops { size := size }
  have := h.cnt1
  rw [hz] at this
  rw [held, e]; simp only at this; omega

/-- C15 for `Lock`: at most one holder. -/
theorem C15_mutual_exclusion (ops : List Op) : (held (trace { size := 1 } ops)).length ≤ 1 :=
  C15_at_most_size_holders 1 (by decide) ops

/-- C15. No operation of a history, in particular no release by a holder, raises `IndexError`. -/
theorem C15_no_index_error (size : Nat) (hs : 0 < size) (ops : List Op) (e : Op × Out)
    (he : e ∈ trace { size := size } ops) : e.2 ≠ .indexError := by
  have gen : ∀ (ops : List Op) (s : State), Inv s → ∀ e ∈ trace s ops, e.2 ≠ .indexError := by
    intro ops
    induction ops with
    | nil => intro s _ e he; simp [trace] at he
    | cons op ops ih =>
      intro s h e he
      simp only [trace, List.mem_cons] at he
      rcases he with rfl | he
      · exact (step_inv 0 s h op).2
      · exact ih _ (step_inv 0 s h op).1 e he
  exact gen ops _ (inv_init size hs) e he

/-- Instance: size 2; four calls, the third is cancelled; the fourth gets in when the first leaves. -/
example : held (trace { size := 2 } [.acquire, .acquire, .acquire, .acquire, .cancel 2, .run, .release 0, .run]) = [1, 3] := by
  decide

/-! ### C16 -/

/-- C16. Calls are numbered in the order in which they ask for the lock. -/
theorem C16_numbered_by_arrival (size : Nat) (hs : 0 < size) (ops : List Op) :
    asked (trace { size := size } ops) = List.range (asked (trace { size := size } ops)).length := by
  have h := (trace_asked ops _ (inv_init size hs)).1
  rw [h]; simp [List.range_eq_range']

/-- C16. Calls that have to wait obtain the lock in the order in which they asked for it. -/
theorem C16_served_in_arrival_order (size : Nat) (hs : 0 < size) (ops : List Op) :
    (obtainedAfterWaiting (trace { size := size } ops)).Pairwise (· < ·) := by
  have h := (runAll_inv ops _ (inv_init size hs)).srvSort
  rw [← trace_served] at h
  simpa using h

/-- C16. Nobody has to wait while the slot is free for them, and nobody walks past a call that is still waiting: a call gets
the lock at once only if no earlier call waits. -/
theorem C16_no_barging (size : Nat) (hs : 0 < size) (ops : List Op) (id : Nat)
    (h : (((({ size := size } : State).runAll ops).step .acquire).2 = .acquired id)) :
    (({ size := size } : State).runAll ops).waiting = [] ∧
    (size = 1 → ∀ p ∈ (({ size := size } : State).runAll ops).ready, p.2 = false) := by
  have hi := runAll_inv ops _ (inv_init size hs)
  have hz := runAll_size ops { size := size }
  generalize ({ size := size } : State).runAll ops = s at *
  simp only at hz
  simp only [State.step, State.acquire] at h
  split at h
  · split at h
    · cases h
    · split at h <;> cases h
  · rename_i hgt
    simp only [List.length_append, List.length_cons, List.length_nil] at hgt
    refine ⟨?_, ?_⟩
    · apply List.eq_nil_iff_forall_not_mem.mpr
      intro w hw
      have := hi.wpre w hw
      rw [show s.q.length - s.size = 0 by omega] at this
      simp at this
    · intro h1 p hp
      cases hp2 : p.2 with
      | false => rfl
      | true =>
        have hm : p.1 ∈ okReady s := mem_okReady.mpr (by rw [← hp2]; exact hp)
        have := List.length_pos_of_mem hm
        have := hi.cnt2
        omega

/-- Where a call that had to wait is now. -/
def Tracked (s : State) (tr : List (Op × Out)) (v : Nat) : Prop :=
  (∃ w ∈ s.waiting, w.id = v) ∨ (∃ p ∈ s.ready, p.1.id = v) ∨ (.run, .acquired v) ∈ tr ∨ (.run, .cancelledError v) ∈ tr

theorem tracked_step (s : State) (op : Op) (tr : List (Op × Out)) (v : Nat)
    (h : Tracked s tr v ∨ (op, (s.step op).2) = (.acquire, .suspended v)) :
    Tracked (s.step op).1 (tr ++ [(op, (s.step op).2)]) v := by
  have wakeLem : ∀ (s' : State) (f : Nat) (b : Bool) (w : Waiter), w ∈ s'.waiting → w.id = v →
      (∃ w ∈ (s'.wake f b).waiting, w.id = v) ∨ (∃ p ∈ (s'.wake f b).ready, p.1.id = v) := by
    intro s' f b w hw e
    by_cases hf : w.awaits = f
    · right
      refine ⟨(w, b), ?_, e⟩
      simp only [State.wake]
      apply List.mem_append_right
      exact List.mem_map.mpr ⟨w, by simp [hw, hf], rfl⟩
    · left
      exact ⟨w, by simp [State.wake, hw, hf], e⟩
  have wakeLem2 : ∀ (s' : State) (f : Nat) (b : Bool) (p : Waiter × Bool), p ∈ s'.ready →
      p ∈ (s'.wake f b).ready := by
    intro s' f b p hp
    simp only [State.wake]; exact List.mem_append_left _ hp
  have cf : ∀ (f : Nat) (tr' : List (Op × Out)), Tracked s tr v → Tracked (s.cancelFut f) (tr ++ tr') v := by
    intro f tr' h
    simp only [State.cancelFut]
    split
    · rcases h with ⟨w, hw, e⟩ | ⟨p, hp, e⟩ | h | h
      · rcases wakeLem _ f false w hw e with h | h
        · exact Or.inl h
        · exact Or.inr (Or.inl h)
      · exact Or.inr (Or.inl ⟨p, wakeLem2 _ f false p hp, e⟩)
      · exact Or.inr (Or.inr (Or.inl (List.mem_append_left _ h)))
      · exact Or.inr (Or.inr (Or.inr (List.mem_append_left _ h)))
    · rcases h with h | h | h | h
      · exact Or.inl h
      · exact Or.inr (Or.inl h)
      · exact Or.inr (Or.inr (Or.inl (List.mem_append_left _ h)))
      · exact Or.inr (Or.inr (Or.inr (List.mem_append_left _ h)))
  have mono : ∀ (s' : State) (tr' : List (Op × Out)), s'.waiting = s.waiting → s'.ready = s.ready → Tracked s tr v →
      Tracked s' (tr ++ tr') v := by
    intro s' tr' e1 e2 h
    rcases h with h | h | h | h
    · exact Or.inl (by rw [e1]; exact h)
    · exact Or.inr (Or.inl (by rw [e2]; exact h))
    · exact Or.inr (Or.inr (Or.inl (List.mem_append_left _ h)))
    · exact Or.inr (Or.inr (Or.inr (List.mem_append_left _ h)))
  cases op with
  | acquire =>
    simp only [State.step, State.acquire] at h ⊢
    split
    · rename_i hgt
      simp only [hgt, if_true] at h
      split
      · rename_i hn
        simp only [hn] at h
        rcases h with h | h
        · exact mono _ _ rfl rfl h
        · simp at h
      · rename_i f hn
        simp only [hn] at h
        split
        · rename_i hc
          simp only [hc, if_true] at h
          rcases h with h | h
          · exact mono _ _ rfl rfl h
          · simp at h
        · rename_i hc
          simp only [hc] at h
          rcases h with h | h
          · rcases h with ⟨w, hw, e⟩ | h
            · exact Or.inl ⟨w, by simp [hw], e⟩
            · exact (mono _ _ rfl rfl (Or.inr h)).elim (fun h => Or.inl (by
                obtain ⟨w, hw, e⟩ := h; exact ⟨w, List.mem_append_left _ hw, e⟩)) Or.inr
          · simp at h
            exact Or.inl ⟨⟨s.next, f.id⟩, by simp, h⟩
    · rename_i hgt
      simp only [hgt] at h
      rcases h with h | h
      · exact mono _ _ rfl rfl h
      · simp at h
  | release x =>
    have h : Tracked s tr v := by
      rcases h with h | h
      · exact h
      · simp at h
    simp only [State.step, State.release]
    split
    · split
      · exact mono _ _ rfl rfl h
      · split
        · exact mono _ _ rfl rfl h
        · rcases h with ⟨w, hw, e⟩ | ⟨p, hp, e⟩ | h | h
          · rcases wakeLem { s with q := _, holders := _ } _ true w hw e with h | h
            · exact Or.inl h
            · exact Or.inr (Or.inl h)
          · exact Or.inr (Or.inl ⟨p, wakeLem2 { s with q := _, holders := _ } _ true p hp, e⟩)
          · exact Or.inr (Or.inr (Or.inl (List.mem_append_left _ h)))
          · exact Or.inr (Or.inr (Or.inr (List.mem_append_left _ h)))
    · exact mono _ _ rfl rfl h
  | cancel x =>
    have h : Tracked s tr v := by
      rcases h with h | h
      · exact h
      · simp at h
    simp only [State.step, State.cancel]
    split
    · exact cf _ _ h
    · rcases h with h | ⟨p, hp, e⟩ | h | h
      · exact Or.inl h
      · refine Or.inr (Or.inl ⟨_, List.mem_map.mpr ⟨p, hp, rfl⟩, ?_⟩)
        split <;> exact e
      · exact Or.inr (Or.inr (Or.inl (List.mem_append_left _ h)))
      · exact Or.inr (Or.inr (Or.inr (List.mem_append_left _ h)))
  | disturb x =>
    have h : Tracked s tr v := by
      rcases h with h | h
      · exact h
      · simp at h
    exact cf _ _ h
  | run =>
    have h : Tracked s tr v := by
      rcases h with h | h
      · exact h
      · simp at h
    simp only [State.step, State.run]
    split
    · exact mono _ _ rfl rfl h
    · rename_i w ready hr
      rcases h with h | ⟨p, hp, e⟩ | h | h
      · exact Or.inl h
      · rw [hr] at hp
        rcases List.mem_cons.mp hp with rfl | hp
        · simp only at e; subst e
          exact Or.inr (Or.inr (Or.inl (by simp)))
        · exact Or.inr (Or.inl ⟨p, hp, e⟩)
      · exact Or.inr (Or.inr (Or.inl (List.mem_append_left _ h)))
      · exact Or.inr (Or.inr (Or.inr (List.mem_append_left _ h)))
    · rename_i w ready hr
      rcases h with h | ⟨p, hp, e⟩ | h | h
      · exact Or.inl h
      · rw [hr] at hp
        rcases List.mem_cons.mp hp with rfl | hp
        · simp only at e; subst e
          exact Or.inr (Or.inr (Or.inr (by simp)))
        · exact Or.inr (Or.inl ⟨p, hp, e⟩)
      · exact Or.inr (Or.inr (Or.inl (List.mem_append_left _ h)))
      · exact Or.inr (Or.inr (Or.inr (List.mem_append_left _ h)))

theorem tracked_run (ops : List Op) : ∀ (s : State) (tr : List (Op × Out)),
    (∀ v, (.acquire, .suspended v) ∈ tr → Tracked s tr v) →
    ∀ v, (.acquire, .suspended v) ∈ tr ++ trace s ops → Tracked (s.runAll ops) (tr ++ trace s ops) v := by
  induction ops with
  | nil => intro s tr h v hv; simp [trace, State.runAll] at hv ⊢; exact h v hv
  | cons op ops ih =>
    intro s tr h v hv
    have := ih (s.step op).1 (tr ++ [(op, (s.step op).2)]) (by
      intro v hv
      rcases List.mem_append.mp hv with hv | hv
      · exact tracked_step s op tr v (Or.inl (h v hv))
      · simp only [List.mem_singleton] at hv; exact tracked_step s op tr v (Or.inr hv.symm)) v (by simpa [trace] using hv)
    show Tracked ((s.step op).1.runAll ops) _ v
    simpa [trace] using this

/-- C16. When a waiting call obtains the lock, every call that began to wait before it has obtained the lock already, or was
cancelled: it has raised `CancelledError` or is about to. -/
theorem C16_only_cancelled_skipped (size : Nat) (hs : 0 < size) (ops : List Op) (w v : Nat)
    (hw : ((({ size := size } : State).runAll ops).step .run).2 = .acquired w)
    (hv : (.acquire, .suspended v) ∈ trace { size := size } ops) (hlt : v < w) :
    (.run, .acquired v) ∈ trace { size := size } ops ∨ (.run, .cancelledError v) ∈ trace { size := size } ops ∨
    ∃ p ∈ (({ size := size } : State).runAll ops).ready, p.1.id = v ∧ p.2 = false := by
  have hi := runAll_inv ops _ (inv_init size hs)
  have ht := tracked_run ops { size := size } [] (by simp) v (by simpa using hv)
  simp only [List.nil_append] at ht
  generalize ({ size := size } : State).runAll ops = s at *
  simp only [State.step, State.run] at hw
  split at hw
  · cases hw
  · rename_i x ready hr
    simp only [Out.acquired.injEq] at hw
    have hok : okReady s = x :: (ready.filter (·.2)).map (·.1) := by simp [okReady, hr]
    rcases ht with ⟨y, hy, e⟩ | ⟨p, hp, e⟩ | h | h
    · have := hi.okw x (by rw [hok]; simp) y hy
      omega
    · refine Or.inr (Or.inr ⟨p, hp, e, ?_⟩)
      cases hp2 : p.2 with
      | false => rfl
      | true =>
        have hm : p.1 ∈ okReady s := mem_okReady.mpr (by rw [← hp2]; exact hp)
        have hsort := hi.oksort
        rw [hok] at hm hsort
        simp only [List.map_cons, List.pairwise_cons] at hsort
        rcases List.mem_cons.mp hm with h | h
        · rw [h] at e; omega
        · have := hsort.1 _ (List.mem_map_of_mem h)
          omega
    · exact Or.inl h
    · exact Or.inr (Or.inl h)
  · cases hw

/-- Instance: the second of four waiting calls is cancelled. -/
example : obtainedAfterWaiting (trace { size := 1 }
    [.acquire, .acquire, .acquire, .acquire, .acquire, .cancel 2, .run, .release 0, .run, .release 1, .run, .release 3, .run]) =
    [1, 3, 4] := by decide

/-! ### C17 -/

/-- The two windows in which a cancellation loses a slot: the task of a call that was granted the lock is cancelled before it
runs; or the lock is released while a cancelled call that has yet to run awaits the oldest future. -/
def Safe (s : State) : Op → Prop
  | .cancel id => ∀ p ∈ s.ready, p.2 = true → p.1.id ≠ id
  | .release _ => ∀ f q, s.q = f :: q → ∀ p ∈ s.ready, p.2 = false → p.1.awaits ≠ f.id
  | _ => True

def AllSafe (s : State) : List Op → Prop
  | [] => True
  | op :: ops => Safe s op ∧ AllSafe (s.step op).1 ops

theorem step_exact (k : Nat) (s : State) (h : Inv s) (he : Exact s k) (op : Op) (hs : Safe s op) : Exact (s.step op).1 k := by
  cases op with
  | acquire => exact (acquire_inv k s h).2.1 he
  | release x =>
    refine (release_inv k s h x).2.2 ?_ he
    intro f q hq w hw
    exact hs f q hq (w, false) (mem_doomed.mp hw).1 rfl
  | cancel x =>
    refine (cancel_inv k s h x).2 ?_ he
    intro w hw
    exact hs (w, true) (mem_okReady.mp hw) rfl
  | disturb x => exact (cancelFut_inv k s h x).2 he
  | run => exact (run_inv k s h).2 he

theorem runAll_exact (k : Nat) (ops : List Op) : ∀ (s : State), Inv s → Exact s k → AllSafe s ops → Exact (s.runAll ops) k := by
  induction ops with
  | nil => intro s _ he _; exact he
  | cons op ops ih =>
    intro s h he hs
    exact ih _ (step_inv 0 s h op).1 (step_exact k s h he op hs.1) hs.2

theorem exact_init (size : Nat) : Exact { size := size } 0 := by simp [Exact, okReady, doomed]

/-- Pigeonhole: distinct members of a list are not more than the list. -/
theorem nodup_length_le : ∀ (l m : List Nat), l.Nodup → (∀ x ∈ l, x ∈ m) → l.length ≤ m.length := by
  intro l
  induction l with
  | nil => intro m _ _; simp
  | cons a l ih =>
    intro m hnd hsub
    obtain ⟨h1, h2⟩ := List.nodup_cons.mp hnd
    have ham := hsub a (by simp)
    have := ih (m.erase a) h2 (by
      intro x hx
      have hne : x ≠ a := fun e => h1 (e ▸ hx)
      exact (List.mem_erase_of_ne hne).mpr (hsub x (List.mem_cons_of_mem _ hx)))
    rw [List.length_erase_of_mem ham] at this
    have := List.length_pos_of_mem ham
    simp only [List.length_cons]
    omega

theorem quiet_free (s : State) (h : Inv s) (he : Exact s 0) (h1 : s.holders = []) (h2 : s.ready = []) :
    s.q = [] ∧ s.waiting = [] := by
  have hw : s.waiting.length ≤ s.q.length - s.size := by
    have := nodup_length_le _ _ h.anodup (by
      intro x hx
      obtain ⟨w, hw, rfl⟩ := List.mem_map.mp hx
      exact h.wpre w hw)
    simp only [List.length_map, List.length_take] at this
    omega
  have hp := h.size_pos
  unfold Exact at he
  rw [h1] at he
  simp only [okReady, doomed, h2, List.filter_nil, List.map_nil, List.length_nil] at he
  have : s.q.length = 0 := by omega
  refine ⟨List.eq_nil_of_length_eq_zero this, List.eq_nil_of_length_eq_zero (by omega)⟩

/-- C17, for histories outside the two windows: when nothing is left to run and every holder has released, no slot is
occupied and nobody waits. -/
theorem C17_quiet_is_free_partial (size : Nat) (hs : 0 < size) (ops : List Op) (ha : AllSafe { size := size } ops)
    (h1 : held (trace { size := size } ops) = []) (h2 : (({ size := size } : State).runAll ops).ready = []) :
    (({ size := size } : State).runAll ops).q = [] ∧ (({ size := size } : State).runAll ops).waiting = [] ∧
    (({ size := size } : State).runAll ops).isLocked = false := by
  have hi := runAll_inv ops _ (inv_init size hs)
  have he := runAll_exact 0 ops _ (inv_init size hs) (exact_init size) ha
  have hz := runAll_size ops { size := size }
  have hh := trace_holders ops { size := size }
  rw [held, hh] at h1
  obtain ⟨a, b⟩ := quiet_free _ hi he h1 h2
  refine ⟨a, b, ?_⟩
  simp only [State.isLocked, a, hz, List.length_nil, ge_iff_le, decide_eq_false_iff_not]
  omega

/-- What is left to do in a state: run a resumed call, otherwise let a holder release. -/
def todo (s : State) : Option Op :=
  if s.ready ≠ [] then some .run
  else match s.holders with
    | [] => none
    | h :: _ => some (.release h)

/-- Runs resumed calls and lets holders release, at most `n` times. -/
def drain : Nat → State → State
  | 0, s => s
  | n + 1, s =>
    match todo s with
    | none => s
    | some op => drain n (s.step op).1

theorem wake_measure (s : State) (h : (s.waiting.map (·.awaits)).Nodup) (f : Nat) (b : Bool) :
    (s.wake f b).ready.length ≤ s.ready.length + 1 := by
  simp only [State.wake, List.length_append, List.length_map, List.length_reverse]
  rcases split_awaits s.waiting h f with ⟨e1, _, _⟩ | ⟨l1, w, l2, _, _, e2, _⟩
  · simp [e1]
  · simp [e2]

theorem drain_free (n : Nat) : ∀ s : State, Inv s → Exact s 0 → 2 * s.q.length + s.ready.length ≤ n →
    (drain n s).q = [] ∧ (drain n s).holders = [] ∧ (drain n s).ready = [] ∧ (drain n s).waiting = [] := by
  induction n with
  | zero =>
    intro s h he hn
    have hq : s.q.length = 0 := by omega
    have hr : s.ready.length = 0 := by omega
    unfold Exact at he
    exact ⟨List.eq_nil_of_length_eq_zero hq, List.eq_nil_of_length_eq_zero (by simp only [drain]; omega),
      List.eq_nil_of_length_eq_zero hr, List.eq_nil_of_length_eq_zero (by simp only [drain]; omega)⟩
  | succ n ih =>
    intro s h he hn
    unfold drain todo
    by_cases hr : s.ready = []
    · simp only [hr, ne_eq, not_true_eq_false, if_false]
      cases hh : s.holders with
      | nil =>
        simp only
        obtain ⟨a, b⟩ := quiet_free s h he hh hr
        exact ⟨a, hh, hr, b⟩
      | cons x xs =>
        simp only
        have hsafe : Safe s (.release x) := by intro f q _ p hp; rw [hr] at hp; simp at hp
        refine ih _ (step_inv 0 s h _).1 (step_exact 0 s h he _ hsafe) ?_
        have hm : x ∈ s.holders := by rw [hh]; simp
        simp only [State.step, State.release, hm, if_true]
        have hc := h.cnt2
        rw [hh] at hc
        cases hq : s.q with
        | nil => rw [hq] at hc; simp at hc
        | cons f q =>
          simp only
          rw [hq] at hn
          simp only [List.length_cons] at hn
          split
          · simp only; omega
          · have := wake_measure { s with q := q, holders := s.holders.erase x } h.anodup f.id true
            simp only [State.wake] at this ⊢
            omega
    · simp only [hr, ne_eq, not_false_eq_true, if_true]
      refine ih _ (step_inv 0 s h _).1 (step_exact 0 s h he _ trivial) ?_
      simp only [State.step, State.run]
      split
      · rename_i h0; exact absurd h0 hr
      · rename_i w ready h0
        rw [h0] at hn; simp only [List.length_cons] at hn ⊢; omega
      · rename_i w ready h0
        rw [h0] at hn; simp only [List.length_cons] at hn
        have : (removeFut s.q w.awaits).length ≤ s.q.length := by
          unfold removeFut; exact List.eraseP_sublist.length_le
        simp only; omega

/-- C17, for histories outside the two windows: running what can run and releasing what is held makes the lock free: no slot
is occupied, nobody waits, and the next call gets in at once. -/
theorem C17_lock_becomes_free_partial (size : Nat) (hs : 0 < size) (ops : List Op) (ha : AllSafe { size := size } ops) :
    ∃ n, (drain n (({ size := size } : State).runAll ops)).q = [] ∧
      (drain n (({ size := size } : State).runAll ops)).waiting = [] ∧
      ∃ id, ((drain n (({ size := size } : State).runAll ops)).step .acquire).2 = .acquired id := by
  have hi := runAll_inv ops _ (inv_init size hs)
  have he := runAll_exact 0 ops _ (inv_init size hs) (exact_init size) ha
  have hz := runAll_size ops { size := size }
  generalize ({ size := size } : State).runAll ops = s at *
  simp only at hz
  refine ⟨2 * s.q.length + s.ready.length, ?_⟩
  obtain ⟨a, b, c, d⟩ := drain_free _ s hi he (Nat.le_refl _)
  have hsz : ∀ n (s : State), (drain n s).size = s.size := by
    intro n
    induction n with
    | zero => intro s; rfl
    | succ n ih =>
      intro s
      unfold drain
      split
      · rfl
      · rw [ih, step_size]
  refine ⟨a, d, (drain (2 * s.q.length + s.ready.length) s).next, ?_⟩
  simp only [State.step, State.acquire, a, hsz, hz, List.nil_append, List.length_cons, List.length_nil]
  rw [if_neg (by omega)]

/-- Instance: the conditions of the theorem hold for a history with a cancellation. -/
example : AllSafe { size := 1 } [.acquire, .acquire, .acquire, .cancel 1, .run, .release 0, .run] ∧
    held (trace { size := 1 } [.acquire, .acquire, .acquire, .cancel 1, .run, .release 0, .run]) = [2] := by
  refine ⟨?_, by decide⟩
  simp only [AllSafe, Safe, true_and, and_true]
  refine ⟨by decide, ?_⟩
  intro f q h p hp
  exact absurd hp (by revert p; decide)

/-- A lock all of whose slots are lost is never obtained again. -/
theorem wedged_forever (ops : List Op) : ∀ (s : State), Inv s → Exact s s.size → s.holders = [] → okReady s = [] →
    ∀ e ∈ trace s ops, ∀ id, e.2 ≠ .acquired id := by
  induction ops with
  | nil => intro s _ _ _ _ e he; simp [trace] at he
  | cons op ops ih =>
    intro s h he hh hok e hm id
    have hnok : ∀ p ∈ s.ready, p.2 = true → False := by
      intro p hp hp2
      have : p.1 ∈ okReady s := mem_okReady.mpr (by rw [← hp2]; exact hp)
      rw [hok] at this; simp at this
    have hkeep : Exact (s.step op).1 s.size := by
      cases op with
      | acquire => exact step_exact s.size s h he _ trivial
      | release x =>
        simp only [State.step, State.release, hh, List.not_mem_nil, if_false]; exact he
      | cancel x => exact step_exact s.size s h he _ (fun p hp hp2 => (hnok p hp hp2).elim)
      | disturb x => exact step_exact s.size s h he _ trivial
      | run => exact step_exact s.size s h he _ trivial
    have hstep : (∀ id, (s.step op).2 ≠ .acquired id) ∧ (s.step op).1.holders = [] ∧ okReady (s.step op).1 = [] := by
      have wf : ∀ (s' : State) (f : Nat), okReady s' = [] → okReady (s'.wake f false) = [] := by
        intro s' f h0
        simp only [okReady, State.wake, List.filter_append, List.map_append] at h0 ⊢
        rw [h0]
        simp [List.filter_eq_nil_iff]
      have cf : ∀ f, (s.cancelFut f).holders = [] ∧ okReady (s.cancelFut f) = [] := by
        intro f
        simp only [State.cancelFut]
        split
        · exact ⟨hh, wf _ _ hok⟩
        · exact ⟨hh, hok⟩
      cases op with
      | acquire =>
        unfold Exact at he
        simp only [State.step, State.acquire]
        rw [if_pos (by simp; omega)]
        split
        · exact ⟨by simp, hh, hok⟩
        · split
          · exact ⟨by simp, hh, hok⟩
          · exact ⟨by simp, hh, hok⟩
      | release x =>
        simp only [State.step, State.release, hh, List.not_mem_nil, if_false]
        exact ⟨by simp, by simp, hok⟩
      | cancel x =>
        simp only [State.step, State.cancel]
        refine ⟨by simp, ?_⟩
        split
        · exact cf _
        · refine ⟨hh, ?_⟩
          apply List.eq_nil_iff_forall_not_mem.mpr
          intro w hw
          have := mem_okReady.mp hw
          obtain ⟨p, hp, e⟩ := List.mem_map.mp this
          split at e
          · simp at e
          · exact hnok p hp (by rw [e])
      | disturb x => exact ⟨by simp [State.step], cf x⟩
      | run =>
        simp only [State.step, State.run]
        split
        · exact ⟨by simp, hh, hok⟩
        · rename_i w ready hr
          exact (hnok (w, true) (by rw [hr]; simp) rfl).elim
        · rename_i w ready hr
          refine ⟨by simp, hh, ?_⟩
          simpa [okReady, hr] using hok
    simp only [trace, List.mem_cons] at hm
    rcases hm with rfl | hm
    · exact hstep.1 id
    · have hz := step_size s op
      exact ih _ (step_inv 0 s h op).1 (by rw [hz]; exact hkeep) hstep.2.1 hstep.2.2 e hm id

/-- C17 does not hold. The holder releases, which grants the lock to the waiting call; its task is cancelled before it runs.
Nobody holds the lock, nothing is left to run, and whatever is done afterwards, no call ever obtains it. -/
theorem C17_cancel_granted_violated :
    let ops : List Op := [.acquire, .acquire, .release 0, .cancel 1, .run]
    held (trace { size := 1 } ops) = [] ∧ (({ size := 1 } : State).runAll ops).ready = [] ∧
    (({ size := 1 } : State).runAll ops).isLocked = true ∧
    ∀ more, ∀ e ∈ trace (({ size := 1 } : State).runAll ops) more, ∀ id, e.2 ≠ .acquired id := by
  refine ⟨by decide, by decide, by decide, fun more => ?_⟩
  exact wedged_forever more _ (runAll_inv _ _ (inv_init 1 (by decide)))
    (by show 0 + 0 + 0 + 0 + 1 = 1; rfl) (by decide) (by decide)

/-- C17 does not hold. A waiting task is cancelled and, before it runs, the holder releases: the holder takes the cancelled
future away, so the cancelled call finds nothing to remove and its own future stays. -/
theorem C17_release_before_cancelled_runs_violated :
    let ops : List Op := [.acquire, .acquire, .cancel 1, .release 0, .run]
    held (trace { size := 1 } ops) = [] ∧ (({ size := 1 } : State).runAll ops).ready = [] ∧
    (({ size := 1 } : State).runAll ops).isLocked = true ∧
    ∀ more, ∀ e ∈ trace (({ size := 1 } : State).runAll ops) more, ∀ id, e.2 ≠ .acquired id := by
  refine ⟨by decide, by decide, by decide, fun more => ?_⟩
  exact wedged_forever more _ (runAll_inv _ _ (inv_init 1 (by decide)))
    (by show 0 + 0 + 0 + 0 + 1 = 1; rfl) (by decide) (by decide)

end Verif.Lock
