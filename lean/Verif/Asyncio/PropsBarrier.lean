/-
Properties C199, C200, C201: the barriers of the asyncio extension.
-/
import Verif.Asyncio.Barrier

namespace Verif.Asyncio.Bar

/-! ### The invariant -/

/-- How many of the calls have an index. -/
def inC (l : List Call) : Nat := l.countP (fun c => c.index.isSome)

/-- Why a call is not woken. -/
def held (st : St) (c : Call) : Prop := c.wake = .pending → if c.index.isSome then st = .filling else st.blocks = true

structure Good (b : B) : Prop where
  cnt : b.count = inC b.calls
  lt : b.count < b.parties
  fine : ∀ c ∈ b.calls, held b.st c
  blk : b.st.blocks = true → 0 < b.count
  nodup : (b.calls.map (·.id)).Nodup
  fresh : ∀ c ∈ b.calls, c.id < b.next

theorem notify_id (c : Call) : c.notify.id = c.id := by unfold Call.notify; split <;> rfl
theorem notify_index (c : Call) : c.notify.index = c.index := by unfold Call.notify; split <;> rfl
theorem notify_wake (c : Call) : c.notify.wake ≠ .pending := by
  unfold Call.notify; split
  · exact nofun
  · next h => exact h

theorem notify_ids (l : List Call) : (l.map Call.notify).map (·.id) = l.map (·.id) := by
  simp only [List.map_map]
  exact List.map_congr_left (fun c _ => notify_id c)

theorem notify_inC (l : List Call) : inC (l.map Call.notify) = inC l := by
  simp only [inC, List.countP_map]
  refine List.countP_congr (fun c _ => ?_)
  simp [notify_index]

theorem notify_inside (l : List Call) : ((l.map Call.notify).filter (fun c => c.index.isSome)).map (·.id) =
    (l.filter (fun c => c.index.isSome)).map (·.id) := by
  induction l with
  | nil => rfl
  | cons c l ih =>
    simp only [List.map_cons, List.filter_cons, notify_index]
    split
    · simp only [List.map_cons, ih, notify_id]
    · exact ih

theorem notified_fine (l : List Call) (st : St) : ∀ c ∈ l.map Call.notify, held st c := by
  intro c hc hp
  obtain ⟨d, _, rfl⟩ := List.mem_map.1 hc
  exact absurd hp (notify_wake d)

theorem notified_fresh {l : List Call} {n : Nat} (h : ∀ c ∈ l, c.id < n) : ∀ c ∈ l.map Call.notify, c.id < n := by
  intro c hc
  obtain ⟨d, hd, rfl⟩ := List.mem_map.1 hc
  rw [notify_id]; exact h d hd

theorem Good.notifyAll {b : B} (cnt : b.count = inC b.calls) (lt : b.count < b.parties) (blk : b.st.blocks = true → 0 < b.count)
    (nodup : (b.calls.map (·.id)).Nodup) (fresh : ∀ c ∈ b.calls, c.id < b.next) : Good b.notifyAll :=
  ⟨cnt.trans (notify_inC _).symm, lt, notified_fine _ _, blk, by rw [show b.notifyAll.calls = b.calls.map Call.notify from rfl, notify_ids]; exact nodup,
    notified_fresh fresh⟩

/-- A call with an index leaves. -/
theorem Good.exit {b : B} (cnt : b.count = inC b.calls + 1) (lt : b.count ≤ b.parties)
    (hf : ∀ c ∈ b.calls, held b.st c)
    (nodup : (b.calls.map (·.id)).Nodup) (fresh : ∀ c ∈ b.calls, c.id < b.next) : Good b.exit := by
  unfold B.exit
  split
  · next h =>
    refine Good.notifyAll (b := { b with count := b.count - 1, st := b.st.left }) ?_ ?_ ?_ nodup fresh
    · show b.count - 1 = inC b.calls; omega
    · show b.count - 1 < b.parties; omega
    · show b.st.left.blocks = true → _
      intro h
      cases hs : b.st <;> rw [hs] at h <;> exact absurd h (by decide)
  · next h =>
    refine ⟨?_, ?_, hf, ?_, nodup, fresh⟩
    · show b.count - 1 = inC b.calls; omega
    · show b.count - 1 < b.parties; omega
    · intro _; show 0 < b.count - 1; omega

theorem Good.enter {b : B} (h : Good b) (hs : b.st.blocks = false) {id : Nat} (hid : id ∉ b.calls.map (·.id)) (hn : id < b.next) :
    Good (b.enter id) := by
  unfold B.enter
  split
  · exact ⟨h.cnt, h.lt, h.fine, h.blk, h.nodup, h.fresh⟩
  · next hb =>
    have hfill : b.st = .filling := by
      cases e : b.st with
      | filling => rfl
      | draining => rw [e] at hs; exact absurd hs (by decide)
      | resetting => rw [e] at hs; exact absurd hs (by decide)
      | broken => exact absurd e hb
    split
    · next he =>
      refine Good.exit ?_ ?_ ?_ ?_ ?_
      · show b.count + 1 = inC (b.calls.map Call.notify) + 1
        rw [notify_inC, h.cnt]
      · show b.count + 1 ≤ b.parties
        omega
      · exact notified_fine _ _
      · show ((b.calls.map Call.notify).map (·.id)).Nodup
        rw [notify_ids]; exact h.nodup
      · exact notified_fresh h.fresh
    · next he =>
      have hc := h.cnt
      have hl := h.lt
      refine ⟨?_, ?_, ?_, ?_, ?_, ?_⟩
      · show b.count + 1 = inC (b.calls ++ [⟨id, some b.count, .pending⟩])
        simp only [inC, List.countP_append] at hc ⊢
        rw [← hc]; rfl
      · show b.count + 1 < b.parties; omega
      · intro c hc
        rcases List.mem_append.1 hc with hc | hc
        · exact h.fine c hc
        · simp only [List.mem_singleton] at hc
          subst hc
          intro _; exact hfill
      · intro _; show 0 < b.count + 1; omega
      · show ((b.calls ++ [(⟨id, some b.count, .pending⟩ : Call)]).map (·.id)).Nodup
        rw [List.map_append]
        refine List.nodup_append.2 ⟨h.nodup, by simp, ?_⟩
        intro x hx y hy e
        simp at hy
        subst hy; subst e
        exact hid hx
      · intro c hc
        rcases List.mem_append.1 hc with hc | hc
        · exact h.fresh c hc
        · simp only [List.mem_singleton] at hc
          subst hc; exact hn

/-! ### A call which goes on -/

theorem find_eraseP (q : Call → Bool) {l : List Call} {p : Call → Bool} {c : Call} (h : l.find? p = some c) :
    l.countP q = (l.eraseP p).countP q + (if q c then 1 else 0) := by
  induction l with
  | nil => exact absurd h nofun
  | cons d l ih =>
    rw [List.find?_cons] at h
    cases hp : p d with
    | true =>
      simp only [hp] at h
      cases h
      rw [List.eraseP_cons_of_pos hp, List.countP_cons]
    | false =>
      simp only [hp] at h
      rw [List.eraseP_cons_of_neg (by simp [hp]), List.countP_cons, List.countP_cons, ih h]
      omega

theorem erase_ids (l : List Call) (id : Nat) : (l.eraseP (fun c => c.id == id)).map (·.id) = (l.map (·.id)).erase id := by
  induction l with
  | nil => rfl
  | cons c l ih =>
    by_cases h : c.id = id
    · rw [List.eraseP_cons_of_pos (by simp [h]), List.map_cons, h, List.erase_cons_head]
    · rw [List.eraseP_cons_of_neg (by simp [h]), List.map_cons, List.map_cons, List.erase_cons_tail (by simp [h]), ih]

theorem erase_not_mem {l : List Call} (h : (l.map (·.id)).Nodup) (id : Nat) : id ∉ (l.eraseP (fun c => c.id == id)).map (·.id) := by
  rw [erase_ids]
  exact fun hx => ((h.mem_erase_iff).1 hx).1 rfl

theorem erase_nodup {l : List Call} (h : (l.map (·.id)).Nodup) (id : Nat) : ((l.eraseP (fun c => c.id == id)).map (·.id)).Nodup := by
  rw [erase_ids]; exact h.erase id

theorem erase_mem {l : List Call} {id : Nat} {c : Call} (h : c ∈ l.eraseP (fun c => c.id == id)) : c ∈ l :=
  List.mem_of_mem_eraseP h

/-- A call goes back to wait. -/
theorem Good.again {b : B} (h : Good b) {id : Nat} {c : Call} (hf : b.calls.find? (fun c => c.id == id) = some c)
    (hfine : held b.st ⟨id, c.index, .pending⟩) :
    Good { b.drop id with calls := (b.drop id).calls ++ [⟨id, c.index, .pending⟩] } := by
  have hc : c ∈ b.calls ∧ c.id = id := ⟨List.mem_of_find?_eq_some hf, by have := List.find?_some hf; simpa using this⟩
  have he := find_eraseP (fun c => c.index.isSome) hf
  refine ⟨?_, h.lt, ?_, h.blk, ?_, ?_⟩
  · show b.count = inC (b.calls.eraseP (fun c => c.id == id) ++ [⟨id, c.index, .pending⟩])
    rw [h.cnt]
    simp only [inC, List.countP_append, he]
    rw [List.countP_cons]
    simp
  · intro d hd
    rcases List.mem_append.1 hd with hd | hd
    · exact h.fine d (erase_mem hd)
    · simp only [List.mem_singleton] at hd
      subst hd; exact hfine
  · show ((b.calls.eraseP (fun c => c.id == id) ++ [(⟨id, c.index, .pending⟩ : Call)]).map (·.id)).Nodup
    rw [List.map_append]
    refine List.nodup_append.2 ⟨erase_nodup h.nodup id, by simp, ?_⟩
    intro x hx y hy e
    simp at hy
    subst hy; subst e
    exact erase_not_mem h.nodup _ hx
  · intro d hd
    rcases List.mem_append.1 hd with hd | hd
    · exact h.fresh d (erase_mem hd)
    · simp only [List.mem_singleton] at hd
      subst hd
      have := h.fresh c hc.1
      rw [hc.2] at this
      exact this

theorem Good.drop {b : B} (h : Good b) {id : Nat} {c : Call} (hf : b.calls.find? (fun c => c.id == id) = some c)
    (hi : c.index = none) (lg : List Ev) : Good { b.drop id with log := lg } := by
  have he := find_eraseP (fun c => c.index.isSome) hf
  refine ⟨?_, h.lt, fun d hd => h.fine d (erase_mem hd), h.blk, erase_nodup h.nodup id, fun d hd => h.fresh d (erase_mem hd)⟩
  show b.count = inC (b.calls.eraseP (fun c => c.id == id))
  rw [h.cnt, inC, he, hi]; rfl

theorem Good.leave {b : B} (h : Good b) {id i : Nat} {c : Call} (hf : b.calls.find? (fun c => c.id == id) = some c)
    (hi : c.index = some i) (lg : List Ev) : Good (B.exit { b.drop id with log := lg }) := by
  have he := find_eraseP (fun c => c.index.isSome) hf
  refine Good.exit ?_ ?_ (fun d hd => h.fine d (erase_mem hd)) (erase_nodup h.nodup id) (fun d hd => h.fresh d (erase_mem hd))
  · show b.count = inC (b.calls.eraseP (fun c => c.id == id)) + 1
    rw [h.cnt, inC, he, hi]; rfl
  · exact Nat.le_of_lt h.lt

theorem Good.go {b : B} (h : Good b) (id : Nat) : Good (b.go id) := by
  unfold B.go
  split
  · exact h
  · next c hf =>
    have hc : c ∈ b.calls ∧ c.id = id := ⟨List.mem_of_find?_eq_some hf, by have := List.find?_some hf; simpa using this⟩
    split
    · exact h
    · next _ hi => exact h.drop hf hi _
    · next i _ hi => exact h.leave hf hi _
    · next _ hi =>
      split
      · next hb =>
        have := h.again (id := id) hf (by rw [hi]; intro _; exact hb)
        rw [hi] at this; exact this
      · next hb =>
        have hg : Good (b.drop id) := h.drop hf hi b.log
        refine hg.enter (show b.st.blocks = false by simpa using hb) (erase_not_mem h.nodup id) ?_
        have := h.fresh c hc.1
        rw [hc.2] at this; exact this
    · next i _ hi =>
      split
      · next hb =>
        have := h.again (id := id) hf (by rw [hi]; intro _; exact hb)
        rw [hi] at this; exact this
      · split
        · exact h.leave hf hi _
        · exact h.leave hf hi _

theorem Good.arrive {b : B} (h : Good b) : Good b.arrive := by
  have hid : b.next ∉ b.calls.map (·.id) := by
    intro hx
    obtain ⟨c, hc, e⟩ := List.mem_map.1 hx
    have := h.fresh c hc
    omega
  unfold B.arrive
  simp only
  split
  · next hb =>
    refine ⟨?_, h.lt, ?_, h.blk, ?_, ?_⟩
    · show b.count = inC (b.calls ++ [⟨b.next, none, .pending⟩])
      rw [h.cnt, inC, inC, List.countP_append]; rfl
    · intro d hd
      rcases List.mem_append.1 hd with hd | hd
      · exact h.fine d hd
      · simp only [List.mem_singleton] at hd
        subst hd; intro _; exact hb
    · show ((b.calls ++ [(⟨b.next, none, .pending⟩ : Call)]).map (·.id)).Nodup
      rw [List.map_append]
      refine List.nodup_append.2 ⟨h.nodup, by simp, ?_⟩
      intro x hx y hy e
      simp at hy
      subst hy; subst e
      exact hid hx
    · intro d hd
      rcases List.mem_append.1 hd with hd | hd
      · exact Nat.lt_succ_of_lt (h.fresh d hd)
      · simp only [List.mem_singleton] at hd
        subst hd; exact Nat.lt_succ_self _
  · next hb =>
    refine Good.enter (b := { b with next := b.next + 1 }) ?_ (by simpa using hb) hid (Nat.lt_succ_self _)
    exact ⟨h.cnt, h.lt, h.fine, h.blk, h.nodup, fun c hc => Nat.lt_succ_of_lt (h.fresh c hc)⟩

/-- What cancelling does to a call. -/
def hit (id : Nat) (c : Call) : Call := if c.id = id then { c with wake := .cancelled } else c

theorem hit_id (id : Nat) (c : Call) : (hit id c).id = c.id := by unfold hit; split <;> rfl
theorem hit_index (id : Nat) (c : Call) : (hit id c).index = c.index := by unfold hit; split <;> rfl

theorem hit_ids (id : Nat) (l : List Call) : (l.map (hit id)).map (·.id) = l.map (·.id) := by
  simp only [List.map_map]
  exact List.map_congr_left (fun c _ => hit_id id c)

theorem hit_inC (id : Nat) (l : List Call) : inC (l.map (hit id)) = inC l := by
  simp only [inC, List.countP_map]
  refine List.countP_congr (fun c _ => ?_)
  simp [hit_index]

theorem Good.cancel {b : B} (h : Good b) (id : Nat) : Good (step b (.cancel id)) := by
  show Good { b with calls := b.calls.map (hit id) }
  refine ⟨h.cnt.trans (hit_inC id _).symm, h.lt, ?_, h.blk, ?_, ?_⟩
  · intro c hc
    obtain ⟨d, hd, rfl⟩ := List.mem_map.1 hc
    have := h.fine d hd
    unfold hit
    split
    · intro hx; exact absurd hx nofun
    · exact this
  · show ((b.calls.map (hit id)).map (·.id)).Nodup
    rw [hit_ids]; exact h.nodup
  · intro c hc
    obtain ⟨d, hd, rfl⟩ := List.mem_map.1 hc
    rw [hit_id]; exact h.fresh d hd

theorem Good.step {b : B} (h : Good b) (o : Op) : Good (step b o) := by
  cases o with
  | arrive => exact h.arrive
  | go id => exact h.go id
  | cancel id => exact h.cancel id
  | reset =>
    refine Good.notifyAll (b := { b with st := if 0 < b.count then .resetting else .filling }) h.cnt h.lt ?_ h.nodup h.fresh
    show (if 0 < b.count then St.resetting else St.filling).blocks = true → _
    split
    · next hx => exact fun _ => hx
    · intro hx; exact absurd hx (by decide)
  | abort =>
    refine Good.notifyAll (b := { b with st := .broken }) h.cnt h.lt ?_ h.nodup h.fresh
    show St.broken.blocks = true → _
    intro hx; exact absurd hx (by decide)

theorem Good.run {b : B} (h : Good b) (l : List Op) : Good (run b l) := by
  induction l generalizing b with
  | nil => exact h
  | cons o l ih => exact ih (h.step o)

theorem Good.new {n : Nat} (hn : 0 < n) : Good (B.new n) := ⟨rfl, hn, nofun, nofun, List.nodup_nil, nofun⟩

theorem parties_run (l : List Op) (b : B) : (run b l).parties = b.parties := by
  induction l generalizing b with
  | nil => rfl
  | cons o l ih =>
    refine (ih _).trans ?_
    have hx : ∀ b : B, b.exit.parties = b.parties := by intro b; unfold B.exit; split <;> rfl
    have he : ∀ (b : B) i, (b.enter i).parties = b.parties := by
      intro b i; unfold B.enter; split
      · rfl
      · split
        · rw [hx]; rfl
        · rfl
    cases o with
    | arrive =>
      show b.arrive.parties = _
      unfold B.arrive; simp only; split
      · rfl
      · rw [he]
    | go id =>
      show (b.go id).parties = _
      unfold B.go
      split
      · rfl
      · split
        · rfl
        · rfl
        · rw [hx]; rfl
        · split
          · rfl
          · rw [he]; rfl
        · split
          · rfl
          · split <;> (rw [hx]; rfl)
    | cancel id => rfl
    | reset => rfl
    | abort => rfl

/-! ### C199: nobody is left behind -/

/-- When no call can go on, only calls of which too few arrived are left: nobody waits for others to
leave, those who wait are fewer than the parties, and nobody waits at a broken barrier. -/
theorem C199_nobody_stuck (n : Nat) (hn : 0 < n) (l : List Op) (hq : ∀ c ∈ (run (B.new n) l).calls, c.wake = .pending) :
    (run (B.new n) l).st.blocks = false ∧ (∀ c ∈ (run (B.new n) l).calls, c.index.isSome) ∧
      ((run (B.new n) l).calls ≠ [] → (run (B.new n) l).st = .filling) ∧ (run (B.new n) l).calls.length < n := by
  have h := (Good.new hn).run l
  have hp : (run (B.new n) l).parties = n := by
    exact parties_run l _
  generalize run (B.new n) l = b at *
  have hblk : b.st.blocks = false := by
    cases hb : b.st.blocks with
    | false => rfl
    | true =>
      have h0 := h.blk hb
      rw [h.cnt, inC, List.countP_pos_iff] at h0
      obtain ⟨c, hc, hi⟩ := h0
      have := h.fine c hc (hq c hc)
      rw [if_pos hi] at this
      rw [this] at hb
      exact absurd hb (by decide)
  have hidx : ∀ c ∈ b.calls, c.index.isSome = true := by
    intro c hc
    have := h.fine c hc (hq c hc)
    cases hi : c.index.isSome with
    | true => rfl
    | false => rw [hi, hblk] at this; exact absurd this (by simp)
  refine ⟨hblk, hidx, ?_, ?_⟩
  · intro hne
    obtain ⟨c, hc⟩ := List.exists_mem_of_ne_nil _ hne
    have := h.fine c hc (hq c hc)
    rw [if_pos (hidx c hc)] at this
    exact this
  · have h1 := h.cnt
    have h2 := h.lt
    rw [inC, List.countP_eq_length.2 hidx] at h1
    omega

/-! ### C200: who passes -/

/-- Reads what happened: those of the last trip who did not pass yet, and whether everything was right: a
trip has as many different calls as there are parties, and who passes is of the last trip and passes once. -/
def look (n : Nat) (s : List Nat × Bool) : Ev → List Nat × Bool
  | .trip ids => (ids, s.2 && decide (ids.length = n) && decide ids.Nodup)
  | .pass id _ => (s.1.erase id, s.2 && decide (id ∈ s.1))
  | _ => s

def judge (n : Nat) (log : List Ev) : List Nat × Bool := log.foldl (look n) ([], true)

def insideOf (l : List Call) : List Nat := (l.filter (fun c => c.index.isSome)).map (·.id)

structure Told (b : B) : Prop where
  ok : (judge b.parties b.log).2 = true
  drain : b.st = .draining → ∀ id ∈ insideOf b.calls, id ∈ (judge b.parties b.log).1

theorem judge_snoc (n : Nat) (l : List Ev) (e : Ev) : judge n (l ++ [e]) = look n (judge n l) e := by
  simp [judge, List.foldl_append]

theorem inside_sub (l : List Call) : (insideOf l).Sublist (l.map (·.id)) := (List.filter_sublist).map _

theorem inside_erase {l : List Call} {id x : Nat} (h : x ∈ insideOf (l.eraseP (fun c => c.id == id))) : x ∈ insideOf l :=
  ((List.eraseP_sublist).filter _ |>.map _).subset h

theorem inside_len (l : List Call) : (insideOf l).length = inC l := by
  simp [insideOf, inC, List.countP_eq_length_filter]

theorem Told.exit {b : B} (ok : (judge b.parties b.log).2 = true)
    (drain : b.st = .draining → ∀ id ∈ insideOf b.calls, id ∈ (judge b.parties b.log).1) : Told b.exit := by
  unfold B.exit
  split
  · refine ⟨ok, ?_⟩
    show b.st.left = .draining → _
    intro h
    cases hs : b.st <;> rw [hs] at h <;> exact absurd h (by decide)
  · exact ⟨ok, drain⟩

theorem Told.enter {b : B} (h : Told b) (hg : Good b) (hs : b.st.blocks = false) {id : Nat} (hid : id ∉ b.calls.map (·.id)) :
    Told (b.enter id) := by
  have hnd : b.st ≠ .draining := by
    intro e; rw [e] at hs; exact absurd hs (by decide)
  unfold B.enter
  split
  · refine ⟨?_, fun e => absurd e hnd⟩
    show (judge b.parties (b.log ++ [.error id])).2 = true
    rw [judge_snoc]; exact h.ok
  · split
    · next he =>
      have hin : id ∉ insideOf b.calls := fun hx => hid ((inside_sub _).subset hx)
      have e : judge b.parties (b.log ++ [.trip (b.inside ++ [id]), .pass id b.count]) =
          ((insideOf b.calls ++ [id]).erase id, true) := by
        rw [show b.log ++ [Ev.trip (b.inside ++ [id]), Ev.pass id b.count] =
          (b.log ++ [.trip (b.inside ++ [id])]) ++ [.pass id b.count] by simp, judge_snoc, judge_snoc]
        have h1 : (insideOf b.calls ++ [id]).length = b.parties := by
          rw [List.length_append, inside_len, ← hg.cnt]; exact he
        have h2 : (insideOf b.calls ++ [id]).Nodup := by
          refine List.nodup_append.2 ⟨hg.nodup.sublist (inside_sub _), by simp, ?_⟩
          intro x hx y hy e
          simp at hy
          subst hy; subst e
          exact hin hx
        show ((insideOf b.calls ++ [id]).erase id, _) = _
        simp only [look, h.ok]
        rw [show b.inside = insideOf b.calls from rfl]
        simp [h2, ← h1]
      refine Told.exit ?_ ?_
      · show (judge b.parties (b.log ++ [.trip (b.inside ++ [id]), .pass id b.count])).2 = true
        rw [e]
      · intro _ x hx
        show x ∈ (judge b.parties (b.log ++ [.trip (b.inside ++ [id]), .pass id b.count])).1
        rw [e]
        have hx : x ∈ insideOf b.calls := by
          have : x ∈ insideOf (b.calls.map Call.notify) := hx
          rw [insideOf, notify_inside] at this; exact this
        have hne : x ≠ id := fun e => hin (e ▸ hx)
        exact (List.mem_erase_of_ne hne).2 (by simp [hx])
    · exact ⟨h.ok, fun e => absurd e hnd⟩

theorem Told.go {b : B} (h : Told b) (hg : Good b) (id : Nat) : Told (b.go id) := by
  unfold B.go
  split
  · exact h
  · next c hf =>
    have hc : c ∈ b.calls ∧ c.id = id := ⟨List.mem_of_find?_eq_some hf, by have := List.find?_some hf; simpa using this⟩
    have hcan : (judge b.parties (b.log ++ [.cancelled id])) = judge b.parties b.log := by rw [judge_snoc]; rfl
    have herr : (judge b.parties (b.log ++ [.error id])) = judge b.parties b.log := by rw [judge_snoc]; rfl
    split
    · exact h
    · refine ⟨?_, ?_⟩
      · show (judge b.parties (b.log ++ [.cancelled id])).2 = true
        rw [hcan]; exact h.ok
      · intro e x hx
        show x ∈ (judge b.parties (b.log ++ [.cancelled id])).1
        rw [hcan]; exact h.drain e x (inside_erase hx)
    · refine Told.exit ?_ ?_
      · show (judge b.parties (b.log ++ [.cancelled id])).2 = true
        rw [hcan]; exact h.ok
      · intro e x hx
        show x ∈ (judge b.parties (b.log ++ [.cancelled id])).1
        rw [hcan]; exact h.drain e x (inside_erase hx)
    · next _ hi =>
      split
      · refine ⟨h.ok, ?_⟩
        intro e x hx
        have : x ∈ insideOf (b.calls.eraseP (fun c => c.id == id) ++ [⟨id, none, .pending⟩]) := hx
        rw [insideOf, List.filter_append, List.map_append] at this
        refine h.drain e x (inside_erase (id := id) ?_)
        rw [insideOf]
        simpa using this
      · next hb =>
        refine Told.enter ?_ (hg.drop hf hi b.log) (show b.st.blocks = false by simpa using hb) (erase_not_mem hg.nodup id)
        exact ⟨h.ok, fun e x hx => h.drain e x (inside_erase hx)⟩
    · next i _ hi =>
      split
      · next hb =>
        refine ⟨h.ok, ?_⟩
        intro e
        exact absurd (hb.symm.trans e) (by decide)
      · split
        · next hb =>
          have hin : id ∈ insideOf b.calls :=
            List.mem_map.2 ⟨c, List.mem_filter.2 ⟨hc.1, by rw [hi]; rfl⟩, hc.2⟩
          have e : judge b.parties (b.log ++ [.pass id i]) = ((judge b.parties b.log).1.erase id, true) := by
            rw [judge_snoc]
            simp only [look, h.ok]
            simp [h.drain hb id hin]
          refine Told.exit ?_ ?_
          · show (judge b.parties (b.log ++ [.pass id i])).2 = true
            rw [e]
          · intro _ x hx
            show x ∈ (judge b.parties (b.log ++ [.pass id i])).1
            rw [e]
            have hne : x ≠ id := by
              intro ex
              subst ex
              exact erase_not_mem hg.nodup x ((inside_sub _).subset hx)
            exact (List.mem_erase_of_ne hne).2 (h.drain hb x (inside_erase hx))
        · next hb =>
          refine Told.exit ?_ ?_
          · show (judge b.parties (b.log ++ [.error id])).2 = true
            rw [herr]; exact h.ok
          · intro e
            exact absurd e hb

theorem Told.step {b : B} (h : Told b) (hg : Good b) (o : Op) : Told (step b o) := by
  cases o with
  | arrive =>
    show Told b.arrive
    have hid : b.next ∉ b.calls.map (·.id) := by
      intro hx
      obtain ⟨c, hc, e⟩ := List.mem_map.1 hx
      have := hg.fresh c hc
      omega
    unfold B.arrive
    simp only
    split
    · refine ⟨h.ok, ?_⟩
      intro e x hx
      have : x ∈ insideOf (b.calls ++ [⟨b.next, none, .pending⟩]) := hx
      rw [insideOf, List.filter_append, List.map_append] at this
      refine h.drain e x ?_
      simpa [insideOf] using this
    · next hb =>
      refine Told.enter (b := { b with next := b.next + 1 }) ⟨h.ok, h.drain⟩ ?_ (by simpa using hb) hid
      exact ⟨hg.cnt, hg.lt, hg.fine, hg.blk, hg.nodup, fun c hc => Nat.lt_succ_of_lt (hg.fresh c hc)⟩
  | go id => exact h.go hg id
  | cancel id =>
    refine ⟨h.ok, ?_⟩
    intro e x hx
    refine h.drain e x ?_
    have : x ∈ insideOf (b.calls.map (hit id)) := hx
    rw [insideOf, List.mem_map] at this
    obtain ⟨c, hc, rfl⟩ := this
    obtain ⟨hc, hi⟩ := List.mem_filter.1 hc
    obtain ⟨d, hd, rfl⟩ := List.mem_map.1 hc
    rw [hit_index] at hi
    exact List.mem_map.2 ⟨d, List.mem_filter.2 ⟨hd, hi⟩, (hit_id id d).symm⟩
  | reset =>
    refine ⟨h.ok, ?_⟩
    show (if 0 < b.count then St.resetting else St.filling) = .draining → _
    split
    · exact fun e => absurd e nofun
    · exact fun e => absurd e nofun
  | abort =>
    refine ⟨h.ok, ?_⟩
    show St.broken = .draining → _
    exact fun e => absurd e nofun

/-- A barrier trips when as many different calls as there are parties are at it, and only those pass, each
once, until it trips again. Calls may be cancelled, and the barrier may be reset or aborted, at any moment. -/
theorem C200_who_passes (n : Nat) (hn : 0 < n) (l : List Op) : (judge n (run (B.new n) l).log).2 = true := by
  have key : ∀ (l : List Op) (b : B), Good b → Told b → Told (run b l) := by
    intro l
    induction l with
    | nil => intro b _ h; exact h
    | cons o l ih => intro b hg h; exact ih _ (hg.step o) (h.step hg o)
  have h := (key l (B.new n) (Good.new hn) ⟨rfl, nofun⟩).ok
  rw [parties_run] at h
  exact h

/-! ### C201: the indexes -/

/-- Reads what happened: the indexes of those who passed since the last trip, and whether they were different
and below the number of parties. -/
def lookIx (n : Nat) (s : List Nat × Bool) : Ev → List Nat × Bool
  | .trip _ => ([], s.2)
  | .pass _ i => (i :: s.1, s.2 && decide (i < n) && decide (i ∉ s.1))
  | _ => s

def judgeIx (n : Nat) (log : List Ev) : List Nat × Bool := log.foldl (lookIx n) ([], true)

/-- Somebody who is cancelled while they wait leaves an index twice: of three parties two get `1`. -/
theorem C201_unique_violated :
    let l : List Op := [.arrive, .arrive, .cancel 0, .go 0, .arrive, .arrive, .go 1, .go 2]
    (run (B.new 3) l).log = [.cancelled 0, .trip [1, 2, 3], .pass 3 2, .pass 1 1, .pass 2 1] ∧
      (judgeIx 3 (run (B.new 3) l).log).2 = false := by decide

def ixs (l : List Call) : List Nat := l.filterMap (·.index)

theorem notify_ixs (l : List Call) : ixs (l.map Call.notify) = ixs l := by
  simp only [ixs, List.filterMap_map]
  congr 1
  funext c
  exact notify_index c

theorem perm_erase {l : List Call} {p : Call → Bool} {c : Call} (h : l.find? p = some c) : l.Perm (c :: l.eraseP p) := by
  induction l with
  | nil => exact absurd h nofun
  | cons d l ih =>
    rw [List.find?_cons] at h
    cases hp : p d with
    | true =>
      simp only [hp] at h
      cases h
      rw [List.eraseP_cons_of_pos hp]
    | false =>
      simp only [hp] at h
      rw [List.eraseP_cons_of_neg (by simp [hp])]
      exact ((ih h).cons d).trans (List.Perm.swap c d _)

theorem ixs_len (l : List Call) : (ixs l).length = inC l := by
  induction l with
  | nil => rfl
  | cons c l ih =>
    obtain ⟨i, x, w⟩ := c
    cases x with
    | none => simpa [ixs, inC] using ih
    | some x => simpa [ixs, inC] using ih

structure Ix (b : B) : Prop where
  ok : (judgeIx b.parties b.log).2 = true
  nodup : (ixs b.calls).Nodup
  below : ∀ i ∈ ixs b.calls, i < b.parties
  fill : b.st = .filling → ∀ i ∈ ixs b.calls, i < b.count
  drain : b.st = .draining → ∀ i ∈ ixs b.calls, i ∉ (judgeIx b.parties b.log).1
  calm : ∀ c ∈ b.calls, c.wake ≠ .cancelled

theorem judgeIx_snoc (n : Nat) (l : List Ev) (e : Ev) : judgeIx n (l ++ [e]) = lookIx n (judgeIx n l) e := by
  simp [judgeIx, List.foldl_append]

theorem notify_calm {l : List Call} (h : ∀ c ∈ l, c.wake ≠ .cancelled) : ∀ c ∈ l.map Call.notify, c.wake ≠ .cancelled := by
  intro c hc
  obtain ⟨d, hd, rfl⟩ := List.mem_map.1 hc
  have := h d hd
  unfold Call.notify
  split
  · exact nofun
  · exact this

theorem Ix.exit {b : B} (cnt : b.count = inC b.calls + 1) (ok : (judgeIx b.parties b.log).2 = true) (nodup : (ixs b.calls).Nodup)
    (below : ∀ i ∈ ixs b.calls, i < b.parties) (nf : b.st ≠ .filling)
    (drain : b.st = .draining → ∀ i ∈ ixs b.calls, i ∉ (judgeIx b.parties b.log).1)
    (calm : ∀ c ∈ b.calls, c.wake ≠ .cancelled) : Ix b.exit := by
  unfold B.exit
  split
  · next h =>
    have h0 : ixs b.calls = [] := List.length_eq_zero_iff.1 (by rw [ixs_len]; omega)
    have e : ixs (b.calls.map Call.notify) = [] := (notify_ixs _).trans h0
    refine ⟨ok, ?_, ?_, ?_, ?_, notify_calm calm⟩
    · show (ixs (b.calls.map Call.notify)).Nodup
      rw [e]; exact List.nodup_nil
    · show ∀ i ∈ ixs (b.calls.map Call.notify), _
      rw [e]; exact nofun
    · show _ → ∀ i ∈ ixs (b.calls.map Call.notify), _
      rw [e]; exact fun _ => nofun
    · show _ → ∀ i ∈ ixs (b.calls.map Call.notify), _
      rw [e]; exact fun _ => nofun
  · exact ⟨ok, nodup, below, fun e => absurd e nf, drain, calm⟩

theorem Ix.enter {b : B} (h : Ix b) (hg : Good b) (hs : b.st.blocks = false) (id : Nat) : Ix (b.enter id) := by
  have hnd : b.st ≠ .draining := by
    intro e; rw [e] at hs; exact absurd hs (by decide)
  unfold B.enter
  split
  · refine ⟨?_, h.nodup, h.below, h.fill, fun e => absurd e hnd, h.calm⟩
    show (judgeIx b.parties (b.log ++ [.error id])).2 = true
    rw [judgeIx_snoc]; exact h.ok
  · next hb =>
    have hfill : b.st = .filling := by
      cases e : b.st with
      | filling => rfl
      | draining => exact absurd e hnd
      | resetting => rw [e] at hs; exact absurd hs (by decide)
      | broken => exact absurd e hb
    split
    · next he =>
      have e : judgeIx b.parties (b.log ++ [.trip (b.inside ++ [id]), .pass id b.count]) = ([b.count], true) := by
        rw [show b.log ++ [Ev.trip (b.inside ++ [id]), Ev.pass id b.count] =
          (b.log ++ [.trip (b.inside ++ [id])]) ++ [.pass id b.count] by simp, judgeIx_snoc, judgeIx_snoc]
        simp [lookIx, h.ok, hg.lt]
      refine Ix.exit ?_ ?_ ?_ ?_ ?_ ?_ ?_
      · show b.count + 1 = inC (b.calls.map Call.notify) + 1
        rw [notify_inC, hg.cnt]
      · show (judgeIx b.parties (b.log ++ [.trip (b.inside ++ [id]), .pass id b.count])).2 = true
        rw [e]
      · show (ixs (b.calls.map Call.notify)).Nodup
        rw [notify_ixs]; exact h.nodup
      · show ∀ i ∈ ixs (b.calls.map Call.notify), i < b.parties
        rw [notify_ixs]; exact h.below
      · exact nofun
      · show _ → ∀ i ∈ ixs (b.calls.map Call.notify), i ∉ (judgeIx b.parties (b.log ++ [.trip (b.inside ++ [id]), .pass id b.count])).1
        rw [notify_ixs, e]
        intro _ i hi hx
        have := h.fill hfill i hi
        simp at hx
        omega
      · exact notify_calm h.calm
    · next he =>
      have ec : ixs (b.calls ++ [⟨id, some b.count, .pending⟩]) = ixs b.calls ++ [b.count] := by
        simp [ixs, List.filterMap_append]
      refine ⟨h.ok, ?_, ?_, ?_, fun e => absurd e hnd, ?_⟩
      · show (ixs (b.calls ++ [⟨id, some b.count, .pending⟩])).Nodup
        rw [ec]
        refine List.nodup_append.2 ⟨h.nodup, by simp, ?_⟩
        intro x hx y hy e
        simp at hy
        have := h.fill hfill x hx
        omega
      · show ∀ i ∈ ixs (b.calls ++ [⟨id, some b.count, .pending⟩]), i < b.parties
        rw [ec]
        intro i hi
        rcases List.mem_append.1 hi with hi | hi
        · exact h.below i hi
        · simp at hi; have := hg.lt; omega
      · show _ → ∀ i ∈ ixs (b.calls ++ [⟨id, some b.count, .pending⟩]), i < b.count + 1
        rw [ec]
        intro _ i hi
        rcases List.mem_append.1 hi with hi | hi
        · have := h.fill hfill i hi; omega
        · simp at hi; omega
      · intro c hc
        rcases List.mem_append.1 hc with hc | hc
        · exact h.calm c hc
        · simp only [List.mem_singleton] at hc
          subst hc; exact nofun

/-- A call goes back to wait. -/
theorem Ix.again {b : B} (h : Ix b) {id : Nat} {c : Call} (hf : b.calls.find? (fun c => c.id == id) = some c) :
    Ix { b.drop id with calls := (b.drop id).calls ++ [⟨id, c.index, .pending⟩] } := by
  have hp : (ixs (b.calls.eraseP (fun c => c.id == id) ++ [⟨id, c.index, .pending⟩])).Perm (ixs b.calls) := by
    have h1 := (perm_erase hf).filterMap (·.index)
    rw [ixs, List.filterMap_append]
    refine (List.perm_append_comm).trans (List.Perm.trans ?_ h1.symm)
    rw [List.filterMap_cons (a := c)]
    cases hi : c.index with
    | none => simp
    | some i => simp
  refine ⟨h.ok, hp.nodup_iff.2 h.nodup, fun i hi => h.below i (hp.mem_iff.1 hi), fun e i hi => h.fill e i (hp.mem_iff.1 hi),
    fun e i hi => h.drain e i (hp.mem_iff.1 hi), ?_⟩
  intro d hd
  rcases List.mem_append.1 hd with hd | hd
  · exact h.calm d (erase_mem hd)
  · simp only [List.mem_singleton] at hd
    subst hd; exact nofun

theorem Ix.go {b : B} (h : Ix b) (hg : Good b) (id : Nat) : Ix (b.go id) := by
  unfold B.go
  split
  · exact h
  · next c hf =>
    have hc : c ∈ b.calls := List.mem_of_find?_eq_some hf
    have hcw := h.calm c hc
    have hp := (perm_erase hf).filterMap (·.index)
    have hsub : ∀ i ∈ ixs (b.calls.eraseP (fun c => c.id == id)), i ∈ ixs b.calls := by
      intro i hi
      exact ((List.eraseP_sublist).filterMap _).subset hi
    have hnd : (ixs (b.calls.eraseP (fun c => c.id == id))).Nodup := h.nodup.sublist ((List.eraseP_sublist).filterMap _)
    have hcalm : ∀ d ∈ b.calls.eraseP (fun c => c.id == id), d.wake ≠ .cancelled := fun d hd => h.calm d (erase_mem hd)
    have he := find_eraseP (fun c => c.index.isSome) hf
    split
    · exact h
    · next hw _ => exact absurd hw hcw
    · next hw _ => exact absurd hw hcw
    · next _ hi =>
      split
      · have := h.again hf
        rw [hi] at this; exact this
      · next hb =>
        refine Ix.enter ?_ (hg.drop hf hi b.log) (show b.st.blocks = false by simpa using hb) id
        exact ⟨h.ok, hnd, fun i hi => h.below i (hsub i hi), fun e i hi => h.fill e i (hsub i hi),
          fun e i hi => h.drain e i (hsub i hi), hcalm⟩
    · next i _ hi =>
      have hcnt : b.count = inC (b.calls.eraseP (fun c => c.id == id)) + 1 := by
        rw [hg.cnt, inC, he, hi]; rfl
      have hmem : i ∈ ixs b.calls := List.mem_filterMap.2 ⟨c, hc, hi⟩
      split
      · have := h.again hf
        rw [hi] at this; exact this
      · next hnf =>
        split
        · next hb =>
          have e : judgeIx b.parties (b.log ++ [.pass id i]) = (i :: (judgeIx b.parties b.log).1, true) := by
            rw [judgeIx_snoc]
            simp [lookIx, h.ok, h.below i hmem, h.drain hb i hmem]
          refine Ix.exit hcnt ?_ hnd (fun i hi => h.below i (hsub i hi)) hnf ?_ hcalm
          · show (judgeIx b.parties (b.log ++ [.pass id i])).2 = true
            rw [e]
          · intro _ j hj
            show j ∉ (judgeIx b.parties (b.log ++ [.pass id i])).1
            rw [e]
            have hne : j ≠ i := by
              intro ej
              subst ej
              rw [List.filterMap_cons, hi] at hp
              have := hp.nodup_iff.1 h.nodup
              exact (List.nodup_cons.1 this).1 hj
            intro hx
            rcases List.mem_cons.1 hx with hx | hx
            · exact hne hx
            · exact h.drain hb j (hsub j hj) hx
        · next hb =>
          refine Ix.exit hcnt ?_ hnd (fun i hi => h.below i (hsub i hi)) hnf (fun e => absurd e hb) hcalm
          show (judgeIx b.parties (b.log ++ [.error id])).2 = true
          rw [judgeIx_snoc]; exact h.ok

theorem Ix.step {b : B} (h : Ix b) (hg : Good b) (o : Op) (ho : ∀ id, o ≠ .cancel id) : Ix (step b o) := by
  cases o with
  | arrive =>
    show Ix b.arrive
    unfold B.arrive
    simp only
    split
    · have ec : ixs (b.calls ++ [⟨b.next, none, .pending⟩]) = ixs b.calls := by
        simp [ixs, List.filterMap_append]
      refine ⟨h.ok, ?_, ?_, ?_, ?_, ?_⟩
      · show (ixs (b.calls ++ [⟨b.next, none, .pending⟩])).Nodup
        rw [ec]; exact h.nodup
      · show ∀ i ∈ ixs (b.calls ++ [⟨b.next, none, .pending⟩]), _
        rw [ec]; exact h.below
      · show _ → ∀ i ∈ ixs (b.calls ++ [⟨b.next, none, .pending⟩]), _
        rw [ec]; exact h.fill
      · show _ → ∀ i ∈ ixs (b.calls ++ [⟨b.next, none, .pending⟩]), _
        rw [ec]; exact h.drain
      · intro d hd
        rcases List.mem_append.1 hd with hd | hd
        · exact h.calm d hd
        · simp only [List.mem_singleton] at hd
          subst hd; exact nofun
    · next hb =>
      refine Ix.enter (b := { b with next := b.next + 1 }) ⟨h.ok, h.nodup, h.below, h.fill, h.drain, h.calm⟩ ?_ (by simpa using hb) _
      exact ⟨hg.cnt, hg.lt, hg.fine, hg.blk, hg.nodup, fun c hc => Nat.lt_succ_of_lt (hg.fresh c hc)⟩
  | go id => exact h.go hg id
  | cancel id => exact absurd rfl (ho id)
  | reset =>
    refine ⟨h.ok, ?_, ?_, ?_, ?_, notify_calm h.calm⟩
    · show (ixs (b.calls.map Call.notify)).Nodup
      rw [notify_ixs]; exact h.nodup
    · show ∀ i ∈ ixs (b.calls.map Call.notify), _
      rw [notify_ixs]; exact h.below
    · show (if 0 < b.count then St.resetting else St.filling) = .filling → ∀ i ∈ ixs (b.calls.map Call.notify), _
      rw [notify_ixs]
      split
      · exact fun e => absurd e nofun
      · intro _ i hi
        have h1 := ixs_len b.calls
        rw [← hg.cnt] at h1
        have h2 := List.length_pos_of_mem hi
        omega
    · show (if 0 < b.count then St.resetting else St.filling) = .draining → _
      split
      · exact fun e => absurd e nofun
      · exact fun e => absurd e nofun
  | abort =>
    refine ⟨h.ok, ?_, ?_, fun e => absurd e nofun, fun e => absurd e nofun, notify_calm h.calm⟩
    · show (ixs (b.calls.map Call.notify)).Nodup
      rw [notify_ixs]; exact h.nodup
    · show ∀ i ∈ ixs (b.calls.map Call.notify), _
      rw [notify_ixs]; exact h.below

/-- If no call is cancelled, those who pass at one trip get different indexes, all below the number of parties;
the barrier may be reset and aborted at any moment. -/
theorem C201_unique_partial (n : Nat) (hn : 0 < n) (l : List Op) (hl : ∀ id, .cancel id ∉ l) :
    (judgeIx n (run (B.new n) l).log).2 = true := by
  have key : ∀ (l : List Op) (b : B), (∀ id, .cancel id ∉ l) → Good b → Ix b → Ix (run b l) := by
    intro l
    induction l with
    | nil => intro b _ _ h; exact h
    | cons o l ih =>
      intro b hl hg h
      exact ih _ (fun id hx => hl id (by simp [hx])) (hg.step o) (h.step hg o (fun id e => hl id (by simp [e])))
  have h := (key l (B.new n) hl (Good.new hn) ⟨rfl, List.nodup_nil, nofun, fun _ => nofun, fun _ => nofun, nofun⟩).ok
  rw [parties_run] at h
  exact h

/-! ### Examples -/

-- C199: an aborted barrier lets everybody go
example : (run (B.new 3) [.arrive, .arrive, .abort, .go 0, .go 1, .arrive]).log = [.error 0, .error 1, .error 2] := by decide

-- C200: three parties; a fourth call waits until they left
example : (run (B.new 3) [.arrive, .arrive, .arrive, .arrive, .go 1, .go 0, .go 3]).log
    = [.trip [0, 1, 2], .pass 2 2, .pass 1 1, .pass 0 0] := by decide

example : (run (B.new 3) [.arrive, .arrive, .arrive, .arrive, .go 1, .go 0, .go 3]).calls = [⟨3, some 0, .pending⟩] := by decide

-- C201
example : (run (B.new 2) [.arrive, .arrive, .go 0, .arrive, .reset, .go 2, .arrive, .arrive, .go 3]).log
    = [.trip [0, 1], .pass 1 1, .pass 0 0, .error 2, .trip [3, 4], .pass 4 1, .pass 3 0] := by decide

end Verif.Asyncio.Bar
