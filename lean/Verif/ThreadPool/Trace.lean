import Verif.ThreadPool.Pool
import Mathlib.Data.List.Basic

/-! What was submitted, ran and returned, and what the threads and the futures hold. -/

namespace Verif.ThreadPool

/-! ## Reading a history -/

def subTo (t : Nat) : Event → Option Nat
  | .submitted u n => if u = t then some n else none
  | _ => none

def ranIn (t : Nat) : Event → Option Nat
  | .ran u n => if u = t then some n else none
  | _ => none

def retIn (t : Nat) : Event → Option Nat
  | .returned u n _ => if u = t then some n else none
  | _ => none

def sub : Event → Option Nat
  | .submitted _ n => some n
  | _ => none

/-- The calls which were given to thread `t`, in this order -/
def submittedTo (t : Nat) (es : List Event) : List Nat := es.filterMap (subTo t)
/-- The calls whose functions thread `t` started, in this order -/
def ranBy (t : Nat) (es : List Event) : List Nat := es.filterMap (ranIn t)
/-- The calls whose functions ended in thread `t`, in this order -/
def returnedBy (t : Nat) (es : List Event) : List Nat := es.filterMap (retIn t)
/-- All the calls -/
def submitted (es : List Event) : List Nat := es.filterMap sub

/-! ## What a thread holds -/

def Thread.held (th : Thread) : List Nat := match th.pc with | .taken n => [n] | _ => []
def Thread.act (th : Thread) : List Nat := match th.pc with | .running n => [n] | _ => []
def Thread.pend (th : Thread) : List Nat := th.held ++ th.queue.filterMap id

/-- A thread which waits has an empty queue, and was not stopped. -/
def Blk (th : Thread) : Prop := th.pc = .blocked → th.queue = [] ∧ th.stopped = false

theorem Blk.put {th : Thread} (x : Option Nat) : Blk (th.put x) := by
  unfold Blk
  cases x with
  | none => cases hp : th.pc <;> simp [Thread.put, hp]
  | some n => cases hp : th.pc <;> simp [Thread.put, hp]

theorem Blk.fetch {th : Thread} : Blk th.fetch := by
  unfold Thread.fetch Blk
  split
  · simp
  · split <;> simp_all

theorem Blk.pc {th : Thread} {pc : Pc} (h : pc ≠ .blocked) : Blk { th with pc := pc } := fun h' => absurd h' h

theorem pend_put_some {th : Thread} (h : Blk th) (n : Nat) : (th.put (some n)).pend = th.pend ++ [n] := by
  unfold Thread.put
  split
  · rename_i m hpc heq; cases heq; simp [Thread.pend, Thread.held, hpc, (h hpc).1]
  · rename_i heq; cases heq
  · simp [Thread.pend, Thread.held]

theorem pend_put_none (th : Thread) : (th.put none).pend = th.pend := by
  unfold Thread.put
  split
  · rename_i heq; cases heq
  · rename_i hpc _; simp [Thread.pend, Thread.held, hpc]
  · simp [Thread.pend, Thread.held]

theorem act_put (th : Thread) (x : Option Nat) : (th.put x).act = th.act := by
  unfold Thread.put
  split <;> simp_all [Thread.act]

theorem pend_fetch_eq {th : Thread} (h : th.pc = .idle) : th.fetch.pend = th.pend := by
  have hh : th.pend = th.queue.filterMap id := by simp [Thread.pend, Thread.held, h]
  rw [hh]
  unfold Thread.fetch
  split
  · simp [Thread.pend, Thread.held]
  · split
    · rename_i hq; simp [Thread.pend, Thread.held, hq]
    · rename_i q hq; simp [Thread.pend, Thread.held, hq]
    · rename_i q hq; simp [Thread.pend, Thread.held, hq]

theorem act_fetch {th : Thread} (h : th.pc = .idle) : th.fetch.act = th.act := by
  have hh : th.act = [] := by simp [Thread.act, h]
  rw [hh]
  unfold Thread.fetch
  split
  · rfl
  · split <;> rfl

theorem pend_drop (th : Thread) : (({ th with queue := [], stopped := true } : Thread).put none).pend = th.held := by
  rw [pend_put_none]; simp [Thread.pend, Thread.held]

theorem act_drop (th : Thread) : (({ th with queue := [], stopped := true } : Thread).put none).act = th.act := by
  rw [act_put]; rfl

/-! ## The invariant -/

structure Inv (es : List Event) (s : State) : Prop where
  good : Good s
  blk : ∀ t, Blk (s.thread t)
  fifo : ∀ t, (ranBy t es ++ (s.thread t).pend).Sublist (submittedTo t es)
  all : submitted es = List.range s.calls
  act : ∀ t, ranBy t es = returnedBy t es ++ (s.thread t).act
  done : ∀ n o, s.fut n = .done o → ∃ t raw, Event.returned t n raw ∈ es ∧ deliver raw = o
  settle : ∀ n o, Cb.settle n o ∈ s.ready → ∃ t raw, Event.returned t n raw ∈ es ∧ deliver raw = o
  canc : ∀ n, s.fut n = .cancelled → Event.userCancel n ∈ es ∨ Event.dropped n ∈ es
  cancCb : ∀ n, Cb.cancel n ∈ s.ready → Event.dropped n ∈ es
  drop : ∀ n, Event.dropped n ∈ es → ∀ t, n ∉ ranBy t es ∧ n ∉ (s.thread t).pend
  dropLt : ∀ n, Event.dropped n ∈ es → n < s.calls
  later : ∀ n, s.calls ≤ n → s.fut n = .pending

theorem Inv.init : Inv [] {} where
  good := Good.init
  blk t := by intro h; cases h
  fifo t := by simp [ranBy, submittedTo, Thread.pend, Thread.held]
  all := rfl
  act t := by simp [ranBy, returnedBy, Thread.act]
  done n o h := by cases h
  settle n o h := by cases h
  canc n h := by cases h
  cancCb n h := by cases h
  drop n h := by cases h
  dropLt n h := by cases h
  later n h := rfl

/-- Every call is submitted to one thread only. -/
theorem submittedTo_sublist (t : Nat) (es : List Event) : (submittedTo t es).Sublist (submitted es) := by
  induction es with
  | nil => exact .refl _
  | cons e es ih =>
    simp only [submittedTo, submitted, List.filterMap_cons] at ih ⊢
    cases e with
    | submitted u n =>
      simp only [subTo, sub]
      by_cases hu : u = t
      · simp only [hu, if_true]; exact ih.cons_cons _
      · simp only [hu, if_false]; exact ih.cons _
    | _ => exact ih

theorem mem_submittedTo {t n : Nat} {es : List Event} : n ∈ submittedTo t es ↔ Event.submitted t n ∈ es := by
  simp only [submittedTo, List.mem_filterMap]
  constructor
  · rintro ⟨e, he, h⟩
    cases e with
    | submitted u m =>
      simp only [subTo] at h
      split at h
      · rename_i hu; cases h; exact hu ▸ he
      · cases h
    | _ => cases h
  · intro h; exact ⟨_, h, by simp [subTo]⟩

theorem mem_ranBy {t n : Nat} {es : List Event} : n ∈ ranBy t es ↔ Event.ran t n ∈ es := by
  simp only [ranBy, List.mem_filterMap]
  constructor
  · rintro ⟨e, he, h⟩
    cases e with
    | ran u m =>
      simp only [ranIn] at h
      split at h
      · rename_i hu; cases h; exact hu ▸ he
      · cases h
    | _ => cases h
  · intro h; exact ⟨_, h, by simp [ranIn]⟩

theorem mem_returnedBy {t n : Nat} {es : List Event} : n ∈ returnedBy t es ↔ ∃ raw, Event.returned t n raw ∈ es := by
  simp only [returnedBy, List.mem_filterMap]
  constructor
  · rintro ⟨e, he, h⟩
    cases e with
    | returned u m raw =>
      simp only [retIn] at h
      split at h
      · rename_i hu; cases h; exact ⟨raw, hu ▸ he⟩
      · cases h
    | _ => cases h
  · rintro ⟨raw, h⟩; exact ⟨_, h, by simp [retIn]⟩

theorem submitted_unique' {es : List Event} (h : (submitted es).Nodup) {t u n : Nat} (h1 : Event.submitted t n ∈ es)
    (h2 : Event.submitted u n ∈ es) : t = u := by
  induction es with
  | nil => cases h1
  | cons e es ih =>
    have tail : (submitted es).Nodup := by
      refine List.Sublist.nodup ?_ h
      simp only [submitted, List.filterMap_cons]
      split
      · exact .refl _
      · exact List.sublist_cons_self ..
    have head : ∀ {v}, e = Event.submitted v n → ∀ w, Event.submitted w n ∉ es := by
      intro v he w hw
      subst he
      simp only [submitted, List.filterMap_cons, sub, List.nodup_cons] at h
      exact h.1 (List.mem_filterMap.2 ⟨_, hw, rfl⟩)
    rcases List.mem_cons.1 h1 with h1 | h1
    · rcases List.mem_cons.1 h2 with h2 | h2
      · rw [← h1] at h2; cases h2; rfl
      · exact absurd h2 (head h1.symm u)
    · rcases List.mem_cons.1 h2 with h2 | h2
      · exact absurd h1 (head h2.symm t)
      · exact ih tail h1 h2

theorem submitted_unique {es : List Event} (h : (submitted es).Nodup) {t u n : Nat} (h1 : n ∈ submittedTo t es)
    (h2 : n ∈ submittedTo u es) : t = u := submitted_unique' h (mem_submittedTo.1 h1) (mem_submittedTo.1 h2)

theorem Inv.nodup {es : List Event} {s : State} (h : Inv es s) : (submitted es).Nodup := by
  rw [h.all]; exact List.nodup_range

theorem Inv.nodup_to {es : List Event} {s : State} (h : Inv es s) (t : Nat) :
    (ranBy t es ++ (s.thread t).pend).Nodup :=
  (h.fifo t).nodup ((submittedTo_sublist t es).nodup h.nodup)

theorem Inv.mem_lt {es : List Event} {s : State} (h : Inv es s) {t n : Nat}
    (hn : n ∈ ranBy t es ∨ n ∈ (s.thread t).pend) : n < s.calls := by
  have : n ∈ submitted es := (submittedTo_sublist t es).subset ((h.fifo t).subset (List.mem_append.2 hn))
  rw [h.all] at this
  exact List.mem_range.1 this

/-- Events which say nothing about calls -/
def Dull (e : Event) : Prop := e = .attributeError ∨ e = .runtimeError

theorem dull_proj {ev : List Event} (h : ∀ e ∈ ev, Dull e) (es : List Event) :
    (∀ t, ranBy t (es ++ ev) = ranBy t es) ∧ (∀ t, returnedBy t (es ++ ev) = returnedBy t es) ∧
    (∀ t, submittedTo t (es ++ ev) = submittedTo t es) ∧ submitted (es ++ ev) = submitted es ∧
    (∀ n, Event.dropped n ∈ es ++ ev ↔ Event.dropped n ∈ es) := by
  have key : ∀ f : Event → Option Nat, f .attributeError = none → f .runtimeError = none →
      (es ++ ev).filterMap f = es.filterMap f := by
    intro f h1 h2
    rw [List.filterMap_append]
    have : ev.filterMap f = [] := by
      rw [List.filterMap_eq_nil_iff]
      intro e he
      rcases h e he with rfl | rfl
      · exact h1
      · exact h2
    rw [this, List.append_nil]
  refine ⟨fun t => key _ rfl rfl, fun t => key _ rfl rfl, fun t => key _ rfl rfl, key _ rfl rfl, fun n => ?_⟩
  rw [List.mem_append]
  constructor
  · rintro (h' | h')
    · exact h'
    · rcases h _ h' with h'' | h'' <;> cases h''
  · exact .inl

/-- Steps which submit, start, end and cancel nothing -/
theorem Inv.quiet {es ev : List Event} {s s' : State} (h : Inv es s) (hg : Good s') (hev : ∀ e ∈ ev, Dull e)
    (hb : ∀ t, Blk (s'.thread t)) (hpend : ∀ t, (s'.thread t).pend.Sublist (s.thread t).pend)
    (hact : ∀ t, (s'.thread t).act = (s.thread t).act) (hcalls : s'.calls = s.calls)
    (hdone : ∀ n o, s'.fut n = .done o → s.fut n = .done o ∨ Cb.settle n o ∈ s.ready)
    (hcanc : ∀ n, s'.fut n = .cancelled → s.fut n = .cancelled ∨ Cb.cancel n ∈ s.ready)
    (hready : ∀ n o, Cb.settle n o ∈ s'.ready → Cb.settle n o ∈ s.ready)
    (hready' : ∀ n, Cb.cancel n ∈ s'.ready → Cb.cancel n ∈ s.ready)
    (hlater : ∀ n, s.calls ≤ n → s'.fut n = .pending) : Inv (es ++ ev) s' := by
  obtain ⟨p1, p2, p3, p4, p5⟩ := dull_proj hev es
  have lift : ∀ {e}, e ∈ es → e ∈ es ++ ev := fun he => List.mem_append.2 (.inl he)
  exact {
    good := hg
    blk := hb
    fifo := fun t => by
      rw [p1, p3]
      exact (List.Sublist.append (.refl _) (hpend t)).trans (h.fifo t)
    all := by rw [p4, hcalls, h.all]
    act := fun t => by rw [p1, p2, hact, h.act]
    done := fun n o ho => by
      rcases hdone n o ho with h' | h'
      · obtain ⟨t, raw, h1, h2⟩ := h.done n o h'; exact ⟨t, raw, lift h1, h2⟩
      · obtain ⟨t, raw, h1, h2⟩ := h.settle n o h'; exact ⟨t, raw, lift h1, h2⟩
    settle := fun n o ho => by
      obtain ⟨t, raw, h1, h2⟩ := h.settle n o (hready n o ho); exact ⟨t, raw, lift h1, h2⟩
    canc := fun n hn => by
      rcases hcanc n hn with h' | h'
      · exact (h.canc n h').imp lift lift
      · exact .inr (lift (h.cancCb n h'))
    cancCb := fun n hn => lift (h.cancCb n (hready' n hn))
    drop := fun n hn t => by
      have := h.drop n ((p5 n).1 hn) t
      rw [p1]
      exact ⟨this.1, fun hm => this.2 ((hpend t).subset hm)⟩
    dropLt := fun n hn => by rw [hcalls]; exact h.dropLt n ((p5 n).1 hn)
    later := fun n hn => hlater n (by rw [hcalls] at hn; exact hn) }

theorem settle_fut (s : State) (n : Nat) (st : Stat) (m : Nat) :
    (s.settle n st).fut m = s.fut m ∨ (m = n ∧ s.fut n = .pending ∧ (s.settle n st).fut m = st) := by
  unfold State.settle
  split
  · rename_i hp
    by_cases hm : m = n
    · subst hm; exact .inr ⟨rfl, hp, by simp⟩
    · exact .inl (upd_ne _ _ hm)
  · exact .inl rfl

theorem settle_ready {s : State} {n : Nat} {st : Stat} {cb : Cb} (h : cb ∈ (s.settle n st).ready) :
    cb ∈ s.ready ∨ ∃ t, s.home n = some t ∧ cb = .doneCb t := by
  unfold State.settle at h
  split at h
  · simp only [List.mem_append, List.mem_map] at h
    rcases h with h | ⟨t, ht, rfl⟩
    · exact .inl h
    · exact .inr ⟨t, by simpa using ht, rfl⟩
  · exact .inl h

theorem Inv.submit {es : List Event} {s s' : State} (h : Inv es s) (hg : Good s') {t : Nat}
    (hth : s'.thread = upd s.thread t ((s.thread t).put (some s.calls))) (hcalls : s'.calls = s.calls + 1)
    (hfut : s'.fut = upd s.fut s.calls .pending) (hready : s'.ready = s.ready) :
    Inv (es ++ [.submitted t s.calls]) s' := by
  have lift : ∀ {e}, e ∈ es → e ∈ es ++ [.submitted t s.calls] := fun he => List.mem_append.2 (.inl he)
  have hran : ∀ u, ranBy u (es ++ [.submitted t s.calls]) = ranBy u es := fun u => by simp [ranBy, ranIn]
  have hret : ∀ u, returnedBy u (es ++ [.submitted t s.calls]) = returnedBy u es := fun u => by simp [returnedBy, retIn]
  have hfut' : ∀ n, s'.fut n ≠ .pending → s'.fut n = s.fut n := by
    intro n hn
    rw [hfut] at hn ⊢
    by_cases e : n = s.calls
    · subst e; simp at hn
    · exact upd_ne _ _ e
  have hdrop : ∀ n, Event.dropped n ∈ es ++ [.submitted t s.calls] → Event.dropped n ∈ es := by
    intro n hn
    rcases List.mem_append.1 hn with h' | h'
    · exact h'
    · simp at h'
  exact {
    good := hg
    blk := fun u => by
      rw [hth]
      by_cases hu : u = t
      · subst hu; rw [upd_same]; exact Blk.put _
      · rw [upd_ne _ _ hu]; exact h.blk u
    fifo := fun u => by
      rw [hran, hth]
      by_cases hu : u = t
      · subst hu
        rw [upd_same, pend_put_some (h.blk u), ← List.append_assoc]
        have : submittedTo u (es ++ [.submitted u s.calls]) = submittedTo u es ++ [s.calls] := by simp [submittedTo, subTo]
        rw [this]
        exact (h.fifo u).append (.refl _)
      · rw [upd_ne _ _ hu]
        have : submittedTo u (es ++ [.submitted t s.calls]) = submittedTo u es := by
          simp [submittedTo, subTo, Ne.symm hu]
        rw [this]; exact h.fifo u
    all := by
      rw [hcalls, List.range_succ, ← h.all]; simp [submitted, sub]
    act := fun u => by
      rw [hran, hret, hth]
      by_cases hu : u = t
      · subst hu; rw [upd_same, act_put]; exact h.act u
      · rw [upd_ne _ _ hu]; exact h.act u
    done := fun n o ho => by
      obtain ⟨u, raw, h1, h2⟩ := h.done n o (by rw [← hfut' n (by rw [ho]; simp)]; exact ho)
      exact ⟨u, raw, lift h1, h2⟩
    settle := fun n o ho => by
      rw [hready] at ho
      obtain ⟨u, raw, h1, h2⟩ := h.settle n o ho; exact ⟨u, raw, lift h1, h2⟩
    canc := fun n hn => (h.canc n (by rw [← hfut' n (by rw [hn]; simp)]; exact hn)).imp lift lift
    cancCb := fun n hn => by rw [hready] at hn; exact lift (h.cancCb n hn)
    drop := fun n hn u => by
      have := h.drop n (hdrop n hn) u
      rw [hran, hth]
      refine ⟨this.1, ?_⟩
      by_cases hu : u = t
      · subst hu
        rw [upd_same, pend_put_some (h.blk u)]
        intro hm
        rcases List.mem_append.1 hm with hm | hm
        · exact this.2 hm
        · simp at hm
          -- a dropped call was submitted before
          have := h.dropLt n (hdrop n hn)
          omega
      · rw [upd_ne _ _ hu]; exact this.2
    dropLt := fun n hn => by have := h.dropLt n (hdrop n hn); omega
    later := fun n hn => by
      rw [hcalls] at hn
      rw [hfut, upd_ne _ _ (by omega)]; exact h.later n (by omega) }

/-- The function of a call which was taken starts. -/
theorem Inv.start {es : List Event} {s : State} (h : Inv es s) {t n : Nat} (hpc : (s.thread t).pc = .taken n)
    (hg : Good { s with thread := upd s.thread t { s.thread t with pc := .running n } }) :
    Inv (es ++ [.ran t n]) { s with thread := upd s.thread t { s.thread t with pc := .running n } } := by
  have lift : ∀ {e}, e ∈ es → e ∈ es ++ [.ran t n] := fun he => List.mem_append.2 (.inl he)
  have hsub : ∀ u, submittedTo u (es ++ [.ran t n]) = submittedTo u es := fun u => by simp [submittedTo, subTo]
  have hret : ∀ u, returnedBy u (es ++ [.ran t n]) = returnedBy u es := fun u => by simp [returnedBy, retIn]
  have hran : ranBy t (es ++ [.ran t n]) = ranBy t es ++ [n] := by simp [ranBy, ranIn]
  have hran' : ∀ u, u ≠ t → ranBy u (es ++ [.ran t n]) = ranBy u es := fun u hu => by simp [ranBy, ranIn, Ne.symm hu]
  have hp : (s.thread t).pend = n :: (s.thread t).queue.filterMap id := by simp [Thread.pend, Thread.held, hpc]
  have hdrop : ∀ m, Event.dropped m ∈ es ++ [.ran t n] → Event.dropped m ∈ es := by
    intro m hm
    rcases List.mem_append.1 hm with h' | h'
    · exact h'
    · simp at h'
  exact {
    good := hg
    blk := fun u => by
      by_cases hu : u = t
      · subst hu; simp only [upd_same]; exact Blk.pc (by simp)
      · simp only [upd_ne _ _ hu]; exact h.blk u
    fifo := fun u => by
      rw [hsub]
      by_cases hu : u = t
      · subst hu
        simp only [upd_same, hran]
        have := h.fifo u
        rw [hp] at this
        simpa [Thread.pend, Thread.held] using this
      · simp only [upd_ne _ _ hu, hran' u hu]; exact h.fifo u
    all := by
      have : submitted (es ++ [.ran t n]) = submitted es := by simp [submitted, sub]
      rw [this]; exact h.all
    act := fun u => by
      rw [hret]
      by_cases hu : u = t
      · subst hu
        simp only [upd_same, hran]
        have := h.act u
        simp only [Thread.act, hpc, List.append_nil] at this
        rw [this]; simp [Thread.act]
      · simp only [upd_ne _ _ hu, hran' u hu]; exact h.act u
    done := fun m o ho => by
      obtain ⟨u, raw, h1, h2⟩ := h.done m o ho; exact ⟨u, raw, lift h1, h2⟩
    settle := fun m o ho => by
      obtain ⟨u, raw, h1, h2⟩ := h.settle m o ho; exact ⟨u, raw, lift h1, h2⟩
    canc := fun m hm => (h.canc m hm).imp lift lift
    cancCb := fun m hm => lift (h.cancCb m hm)
    drop := fun m hm u => by
      have := h.drop m (hdrop m hm) u
      by_cases hu : u = t
      · subst hu
        simp only [upd_same, hran]
        rw [hp] at this
        constructor
        · intro h'
          rcases List.mem_append.1 h' with h' | h'
          · exact this.1 h'
          · simp at h'; subst h'; exact this.2 (List.mem_cons_self ..)
        · intro h'
          refine this.2 (List.mem_cons_of_mem _ ?_)
          simpa [Thread.pend, Thread.held] using h'
      · simp only [upd_ne _ _ hu, hran' u hu]; exact this
    dropLt := fun m hm => h.dropLt m (hdrop m hm)
    later := h.later }

/-- A function ends. -/
theorem Inv.finish {es : List Event} {s : State} (h : Inv es s) {t n : Nat} (raw : Raw) (hpc : (s.thread t).pc = .running n)
    (hg : Good { s with
      thread := upd s.thread t { s.thread t with pc := .idle }, ready := s.ready ++ [.settle n (deliver raw)] }) :
    Inv (es ++ [.returned t n raw]) { s with
      thread := upd s.thread t { s.thread t with pc := .idle }, ready := s.ready ++ [.settle n (deliver raw)] } := by
  have lift : ∀ {e}, e ∈ es → e ∈ es ++ [.returned t n raw] := fun he => List.mem_append.2 (.inl he)
  have hsub : ∀ u, submittedTo u (es ++ [.returned t n raw]) = submittedTo u es := fun u => by simp [submittedTo, subTo]
  have hran : ∀ u, ranBy u (es ++ [.returned t n raw]) = ranBy u es := fun u => by simp [ranBy, ranIn]
  have hret : returnedBy t (es ++ [.returned t n raw]) = returnedBy t es ++ [n] := by simp [returnedBy, retIn]
  have hret' : ∀ u, u ≠ t → returnedBy u (es ++ [.returned t n raw]) = returnedBy u es :=
    fun u hu => by simp [returnedBy, retIn, Ne.symm hu]
  have hp : ({ s.thread t with pc := .idle } : Thread).pend = (s.thread t).pend := by
    simp [Thread.pend, Thread.held, hpc]
  have hp' : ∀ u, (upd s.thread t { s.thread t with pc := .idle } u).pend = (s.thread u).pend := by
    intro u
    by_cases hu : u = t
    · subst hu; rw [upd_same, hp]
    · rw [upd_ne _ _ hu]
  have hdrop : ∀ m, Event.dropped m ∈ es ++ [.returned t n raw] → Event.dropped m ∈ es := by
    intro m hm
    rcases List.mem_append.1 hm with h' | h'
    · exact h'
    · simp at h'
  exact {
    good := hg
    blk := fun u => by
      by_cases hu : u = t
      · subst hu; simp only [upd_same]; exact Blk.pc (by simp)
      · simp only [upd_ne _ _ hu]; exact h.blk u
    fifo := fun u => by rw [hsub, hran, hp']; exact h.fifo u
    all := by
      have : submitted (es ++ [.returned t n raw]) = submitted es := by simp [submitted, sub]
      rw [this]; exact h.all
    act := fun u => by
      rw [hran]
      by_cases hu : u = t
      · subst hu
        simp only [upd_same, hret]
        have := h.act u
        simp only [Thread.act, hpc] at this
        rw [this]; simp [Thread.act]
      · simp only [upd_ne _ _ hu, hret' u hu]; exact h.act u
    done := fun m o ho => by
      obtain ⟨u, r, h1, h2⟩ := h.done m o ho; exact ⟨u, r, lift h1, h2⟩
    settle := fun m o ho => by
      rcases List.mem_append.1 ho with ho | ho
      · obtain ⟨u, r, h1, h2⟩ := h.settle m o ho; exact ⟨u, r, lift h1, h2⟩
      · simp at ho
        obtain ⟨rfl, rfl⟩ := ho
        exact ⟨t, raw, by simp, rfl⟩
    canc := fun m hm => (h.canc m hm).imp lift lift
    cancCb := fun m hm => by
      rcases List.mem_append.1 hm with hm | hm
      · exact lift (h.cancCb m hm)
      · simp at hm
    drop := fun m hm u => by rw [hran, hp']; exact h.drop m (hdrop m hm) u
    dropLt := fun m hm => h.dropLt m (hdrop m hm)
    later := h.later }

/-- Somebody cancels a future. -/
theorem Inv.cancel {es : List Event} {s : State} (h : Inv es s) {n : Nat} (hn : n < s.calls)
    (hg : Good (s.settle n .cancelled)) : Inv (es ++ [.userCancel n]) (s.settle n .cancelled) := by
  have lift : ∀ {e}, e ∈ es → e ∈ es ++ [.userCancel n] := fun he => List.mem_append.2 (.inl he)
  have hsub : ∀ u, submittedTo u (es ++ [.userCancel n]) = submittedTo u es := fun u => by simp [submittedTo, subTo]
  have hran : ∀ u, ranBy u (es ++ [.userCancel n]) = ranBy u es := fun u => by simp [ranBy, ranIn]
  have hret : ∀ u, returnedBy u (es ++ [.userCancel n]) = returnedBy u es := fun u => by simp [returnedBy, retIn]
  have hdrop : ∀ m, Event.dropped m ∈ es ++ [.userCancel n] → Event.dropped m ∈ es := by
    intro m hm
    rcases List.mem_append.1 hm with h' | h'
    · exact h'
    · simp at h'
  obtain ⟨-, f2, -, -, -, -, f7, -⟩ := settle_frame s n .cancelled
  exact {
    good := hg
    blk := fun u => by rw [f2]; exact h.blk u
    fifo := fun u => by rw [hsub, hran, f2]; exact h.fifo u
    all := by
      have : submitted (es ++ [.userCancel n]) = submitted es := by simp [submitted, sub]
      rw [this, f7]; exact h.all
    act := fun u => by rw [hran, hret, f2]; exact h.act u
    done := fun m o ho => by
      rcases settle_fut s n .cancelled m with h' | ⟨_, _, h'⟩
      · rw [h'] at ho
        obtain ⟨u, r, h1, h2⟩ := h.done m o ho; exact ⟨u, r, lift h1, h2⟩
      · rw [h'] at ho; cases ho
    settle := fun m o ho => by
      rcases settle_ready ho with ho | ⟨t, _, ho⟩
      · obtain ⟨u, r, h1, h2⟩ := h.settle m o ho; exact ⟨u, r, lift h1, h2⟩
      · cases ho
    canc := fun m hm => by
      rcases settle_fut s n .cancelled m with h' | ⟨h', _, _⟩
      · rw [h'] at hm; exact (h.canc m hm).imp lift lift
      · subst h'; exact .inl (by simp)
    cancCb := fun m hm => by
      rcases settle_ready hm with hm | ⟨t, _, hm⟩
      · exact lift (h.cancCb m hm)
      · cases hm
    drop := fun m hm u => by rw [hran, f2]; exact h.drop m (hdrop m hm) u
    dropLt := fun m hm => by rw [f7]; exact h.dropLt m (hdrop m hm)
    later := fun m hm => by
      rw [f7] at hm
      rcases settle_fut s n .cancelled m with h' | ⟨h', _, _⟩
      · rw [h']; exact h.later m hm
      · omega }

theorem queued_eq {s : State} (h : Pool s) :
    s.queued = (s.running ++ s.claimed).flatMap fun t => (s.thread t).queue.filterMap id := by
  unfold State.queued
  rw [List.flatMap_def, List.flatMap_def]
  congr 1
  apply List.map_congr_left
  intro t ht
  have ho : t ∈ s.all := by simp only [State.all, List.mem_append] at ht ⊢; exact .inr ht
  rw [drain_none ((isOpen_iff _).1 ((h.mem t).1 ho).2).1]

theorem Inv.cancelAll {es : List Event} {s : State} (h : Inv es s) (hg : Good s.cancelAll.1) :
    Inv (es ++ s.queued.map .dropped) s.cancelAll.1 := by
  have hq : ∀ e ∈ s.queued.map Event.dropped, ∃ n, e = .dropped n ∧ n ∈ s.queued := by
    intro e he
    obtain ⟨n, hn, rfl⟩ := List.mem_map.1 he
    exact ⟨n, rfl, hn⟩
  have key : ∀ f : Event → Option Nat, (∀ n, f (.dropped n) = none) →
      (es ++ s.queued.map Event.dropped).filterMap f = es.filterMap f := by
    intro f hf
    rw [List.filterMap_append]
    have : (s.queued.map Event.dropped).filterMap f = [] := by
      rw [List.filterMap_eq_nil_iff]
      intro e he
      obtain ⟨n, rfl, -⟩ := hq e he
      exact hf n
    rw [this, List.append_nil]
  have lift : ∀ {e}, e ∈ es → e ∈ es ++ s.queued.map .dropped := fun he => List.mem_append.2 (.inl he)
  have hran : ∀ u, ranBy u (es ++ s.queued.map .dropped) = ranBy u es := fun u => key (ranIn u) (fun _ => rfl)
  have hret : ∀ u, returnedBy u (es ++ s.queued.map .dropped) = returnedBy u es := fun u => key (retIn u) (fun _ => rfl)
  have hsub : ∀ u, submittedTo u (es ++ s.queued.map .dropped) = submittedTo u es := fun u => key (subTo u) (fun _ => rfl)
  have hall : submitted (es ++ s.queued.map .dropped) = submitted es := key sub (fun _ => rfl)
  have hpool := h.good.pool
  have hqe := queued_eq hpool
  have hdrop : ∀ m, Event.dropped m ∈ es ++ s.queued.map .dropped → Event.dropped m ∈ es ∨ m ∈ s.queued := by
    intro m hm
    rcases List.mem_append.1 hm with h' | h'
    · exact .inl h'
    · obtain ⟨n, h1, h2⟩ := hq _ h'
      cases h1; exact .inr h2
  rw [cancelAll_open hpool] at hg ⊢
  dsimp only at hg ⊢
  have hpend : ∀ u, (if u ∈ s.free then (s.thread u).put none
          else if u ∈ s.running ∨ u ∈ s.claimed then
            ({ s.thread u with queue := [], stopped := true } : Thread).put none
          else s.thread u).pend.Sublist (s.thread u).pend := by
    intro u
    split
    · rw [pend_put_none]
    · split
      · rw [pend_drop]; exact List.sublist_append_left _ _
      · exact .refl _
  -- the thread which holds a queued call
  have hqm : ∀ m, m ∈ s.queued → ∃ t, (t ∈ s.running ∨ t ∈ s.claimed) ∧ m ∈ (s.thread t).queue.filterMap id := by
    intro m hm
    rw [hqe, List.mem_flatMap] at hm
    obtain ⟨t, ht, hm⟩ := hm
    exact ⟨t, List.mem_append.1 ht, hm⟩
  have hqp : ∀ {m t}, m ∈ (s.thread t).queue.filterMap id → m ∈ (s.thread t).pend := by
    intro m t hm; exact List.mem_append.2 (.inr hm)
  exact {
    good := hg
    blk := fun u => by
      dsimp only
      split
      · exact Blk.put _
      · split
        · exact Blk.put _
        · exact h.blk u
    fifo := fun u => by
      rw [hran, hsub]
      exact (List.Sublist.append (.refl _) (hpend u)).trans (h.fifo u)
    all := by rw [hall]; exact h.all
    act := fun u => by
      rw [hran, hret, h.act u]
      dsimp only
      congr 1
      split
      · rw [act_put]
      · split
        · rw [act_drop]
        · rfl
    done := fun m o ho => by
      obtain ⟨u, r, h1, h2⟩ := h.done m o ho; exact ⟨u, r, lift h1, h2⟩
    settle := fun m o ho => by
      rcases List.mem_append.1 ho with ho | ho
      · obtain ⟨u, r, h1, h2⟩ := h.settle m o ho; exact ⟨u, r, lift h1, h2⟩
      · simp at ho
    canc := fun m hm => (h.canc m hm).imp lift lift
    cancCb := fun m hm => by
      rcases List.mem_append.1 hm with hm | hm
      · exact lift (h.cancCb m hm)
      · rw [← hqe] at hm
        obtain ⟨k, hk, he⟩ := List.mem_map.1 hm
        cases he
        exact List.mem_append.2 (.inr (List.mem_map.2 ⟨_, hk, rfl⟩))
    drop := fun m hm u => by
      rw [hran]
      rcases hdrop m hm with h' | h'
      · have := h.drop m h' u
        exact ⟨this.1, fun hp => this.2 ((hpend u).subset hp)⟩
      · obtain ⟨t, ht, hmq⟩ := hqm m h'
        have hst : m ∈ submittedTo t es := (h.fifo t).subset (List.mem_append.2 (.inr (hqp hmq)))
        by_cases hu : u = t
        · subst hu
          have hnd := h.nodup_to u
          rw [List.nodup_append] at hnd
          refine ⟨fun hr => hnd.2.2 m hr m (hqp hmq) rfl, ?_⟩
          have hnf : u ∉ s.free := by
            have := hpool.nodup
            simp only [State.all, List.nodup_append] at this
            exact fun hf => this.2.2 u hf u (List.mem_append.2 ht) rfl
          simp only [if_neg hnf, if_pos ht]
          rw [pend_drop]
          have h2 := hnd.2.1
          rw [Thread.pend, List.nodup_append] at h2
          exact fun hh => h2.2.2 m hh m hmq rfl
        · constructor
          · intro hr
            exact hu (submitted_unique h.nodup ((h.fifo u).subset (List.mem_append.2 (.inl hr))) hst)
          · intro hp
            exact hu (submitted_unique h.nodup
              ((h.fifo u).subset (List.mem_append.2 (.inr ((hpend u).subset hp)))) hst)
    dropLt := fun m hm => by
      rcases hdrop m hm with h' | h'
      · exact h.dropLt m h'
      · obtain ⟨t, ht, hmq⟩ := hqm m h'
        exact h.mem_lt (.inr (hqp hmq))
    later := h.later }

theorem getFree_frame (s : State) :
    s.getFree.1.thread = s.thread ∧ s.getFree.1.calls = s.calls ∧ s.getFree.1.fut = s.fut ∧
    s.getFree.1.ready = s.ready ∧ s.getFree.1.home = s.home ∧ s.getFree.1.running = s.running ∧
    s.getFree.1.claimed = s.claimed := by
  rcases getFree_cases s with ⟨t, free, _, he⟩ | ⟨_, he⟩ <;> rw [he] <;> simp

theorem no_dull : ∀ e ∈ ([] : List Event), Dull e := fun _ he => absurd he (by simp)

/-- Steps which only move threads between the sets, or tell them to stop. -/
theorem Inv.still {es ev : List Event} {s s' : State} (h : Inv es s) (hg : Good s') (hev : ∀ e ∈ ev, Dull e)
    (ht : ∀ t, s'.thread t = s.thread t ∨ s'.thread t = (s.thread t).put none) (hc : s'.calls = s.calls)
    (hf : s'.fut = s.fut) (hr : s'.ready = s.ready) : Inv (es ++ ev) s' := by
  refine h.quiet hg hev ?_ ?_ ?_ hc ?_ ?_ ?_ ?_ ?_
  · intro t
    rcases ht t with e | e
    · rw [e]; exact h.blk t
    · rw [e]; exact Blk.put _
  · intro t
    rcases ht t with e | e
    · rw [e]
    · rw [e, pend_put_none]
  · intro t
    rcases ht t with e | e
    · rw [e]
    · rw [e, act_put]
  · intro n o ho; rw [hf] at ho; exact .inl ho
  · intro n ho; rw [hf] at ho; exact .inl ho
  · intro n o ho; rw [hr] at ho; exact ho
  · intro n ho; rw [hr] at ho; exact ho
  · intro n hn; rw [hf]; exact h.later n hn

theorem releaseAll_thread {s : State} (h : Pool s) (u : Nat) :
    s.releaseAll.thread u = if u ∈ s.all then (s.thread u).put none else s.thread u := by
  have hn := h.nodup
  simp only [State.all, List.nodup_append] at hn
  obtain ⟨hf, ⟨hr, hcl, h1⟩, h2⟩ := hn
  show (releaseList s.claimed (releaseList s.running (releaseList s.free s.resetKept))).thread u = _
  rw [releaseList_thread _ _ hcl, releaseList_thread _ _ hr, releaseList_thread _ _ hf]
  have e : s.resetKept.thread = s.thread := rfl
  rw [e]
  simp only [State.all, List.mem_append]
  by_cases a : u ∈ s.free
  · have b : u ∉ s.running := fun hm => h2 u a u (List.mem_append.2 (.inl hm)) rfl
    have c : u ∉ s.claimed := fun hm => h2 u a u (List.mem_append.2 (.inr hm)) rfl
    simp [a, b, c]
  · by_cases b : u ∈ s.running
    · have c : u ∉ s.claimed := fun hm => h1 u b u hm rfl
      simp [a, b, c]
    · simp [a, b]

theorem releaseAll_frame (s : State) :
    s.releaseAll.calls = s.calls ∧ s.releaseAll.fut = s.fut ∧ s.releaseAll.ready = s.ready ∧
    s.releaseAll.home = s.home ∧ s.releaseAll.count = s.count ∧ s.releaseAll.handles = s.handles := by
  obtain ⟨a1, -, -, -, a5, a6, a7, a8, a9, -⟩ := releaseList_frame s.free s.resetKept
  obtain ⟨b1, -, -, -, b5, b6, b7, b8, b9, -⟩ := releaseList_frame s.running (releaseList s.free s.resetKept)
  obtain ⟨c1, -, -, -, c5, c6, c7, c8, c9, -⟩ :=
    releaseList_frame s.claimed (releaseList s.running (releaseList s.free s.resetKept))
  refine ⟨?_, ?_, ?_, ?_, ?_, ?_⟩
  · show (releaseList s.claimed (releaseList s.running (releaseList s.free s.resetKept))).calls = _
    rw [c6, b6, a6]; rfl
  · show (releaseList s.claimed (releaseList s.running (releaseList s.free s.resetKept))).fut = _
    rw [c7, b7, a7]; rfl
  · show (releaseList s.claimed (releaseList s.running (releaseList s.free s.resetKept))).ready = _
    rw [c9, b9, a9]; rfl
  · show (releaseList s.claimed (releaseList s.running (releaseList s.free s.resetKept))).home = _
    rw [c8, b8, a8]; rfl
  · show (releaseList s.claimed (releaseList s.running (releaseList s.free s.resetKept))).count = _
    rw [c1, b1, a1]; rfl
  · show (releaseList s.claimed (releaseList s.running (releaseList s.free s.resetKept))).handles = _
    rw [c5, b5, a5]; rfl

theorem stepRelease_frame (s : State) (i : Nat) :
    (s.stepRelease i).1.thread = s.thread ∧ (s.stepRelease i).1.calls = s.calls ∧ (s.stepRelease i).1.fut = s.fut ∧
    (s.stepRelease i).1.ready = s.ready ∧ (s.stepRelease i).1.home = s.home ∧ (s.stepRelease i).1.count = s.count ∧
    (s.stepRelease i).1.running = s.running ∧ (∀ e ∈ (s.stepRelease i).2, Dull e) := by
  unfold State.stepRelease
  split
  · split
    · dsimp only
      split
      · obtain ⟨h1, h2, h3, h4, h5, h6, h7, h8, h9, h10⟩ := syncKeep_frame { s with claimed := s.claimed.erase _ } _
        exact ⟨h2, h7, h9, h10, h8, h1, h4, no_dull⟩
      · exact ⟨rfl, rfl, rfl, rfl, rfl, rfl, rfl, no_dull⟩
    · exact ⟨rfl, rfl, rfl, rfl, rfl, rfl, rfl, fun e he => by simp at he; exact .inl he⟩
  · exact ⟨rfl, rfl, rfl, rfl, rfl, rfl, rfl, no_dull⟩

theorem Inv.step {es : List Event} {s : State} (h : Inv es s) (op : Op) : Inv (es ++ (s.step op).2) (s.step op).1 := by
  have hg := h.good.step op
  cases op with
  | run =>
    obtain ⟨f1, f2, f3, f4, -⟩ := getFree_frame s
    have e : (s.step .run).2 = [.submitted s.getFree.2 s.calls] := by
      show [Event.submitted s.getFree.2 s.getFree.1.calls] = _; rw [f2]
    rw [e]
    refine h.submit hg ?_ ?_ ?_ ?_
    · show upd s.getFree.1.thread s.getFree.2 ((s.getFree.1.thread s.getFree.2).put (some s.getFree.1.calls)) = _
      rw [f1, f2]
    · show s.getFree.1.calls + 1 = _; rw [f2]
    · show upd s.getFree.1.fut s.getFree.1.calls _ = _; rw [f2, f3]
    · show s.getFree.1.ready = _; rw [f4]
  | claim =>
    obtain ⟨f1, f2, f3, f4, -⟩ := getFree_frame s
    refine h.still hg no_dull (fun t => .inl ?_) f2 f3 f4
    show s.getFree.1.thread t = _; rw [f1]
  | execute i =>
    show Inv (es ++ (s.stepExecute i).2) (s.stepExecute i).1
    have hg' : Good (s.stepExecute i).1 := hg
    unfold State.stepExecute at hg' ⊢
    split
    · rename_i t hi
      simp only [hi] at hg'
      exact h.submit hg' rfl rfl rfl rfl
    · exact h.still h.good (fun e he => by simp at he; exact .inr he) (fun _ => .inl rfl) rfl rfl rfl
    · exact h.still h.good no_dull (fun _ => .inl rfl) rfl rfl rfl
  | release i =>
    obtain ⟨f1, f2, f3, f4, _, _, _, f5⟩ := stepRelease_frame s i
    refine h.still hg f5 (fun t => .inl ?_) f2 f3 f4
    show (s.stepRelease i).1.thread t = _; rw [f1]
  | fetch t =>
    show Inv (es ++ []) (s.stepFetch t)
    have hg' : Good (s.stepFetch t) := hg
    unfold State.stepFetch at hg' ⊢
    split
    · rename_i ht
      rw [if_pos ht] at hg'
      refine h.quiet hg' no_dull ?_ ?_ ?_ rfl (fun n o ho => .inl ho) (fun n ho => .inl ho) (fun _ _ ho => ho)
        (fun _ ho => ho) h.later
      · intro u
        by_cases hu : u = t
        · subst hu; simp only [upd_same]; exact Blk.fetch
        · simp only [upd_ne _ _ hu]; exact h.blk u
      · intro u
        by_cases hu : u = t
        · subst hu; simp only [upd_same]; rw [pend_fetch_eq ht.2]
        · simp only [upd_ne _ _ hu]; exact .refl _
      · intro u
        by_cases hu : u = t
        · subst hu; simp only [upd_same]; exact act_fetch ht.2
        · simp only [upd_ne _ _ hu]
    · rw [List.append_nil]; exact h
  | start t =>
    show Inv (es ++ (s.stepStart t).2) (s.stepStart t).1
    have hg' : Good (s.stepStart t).1 := hg
    unfold State.stepStart at hg' ⊢
    split
    · rename_i n hn
      simp only [hn] at hg'
      split
      · rename_i hf
        rw [if_pos hf] at hg'
        exact h.start hn hg'
      · rename_i hf
        rw [if_neg hf] at hg'
        refine h.quiet hg' no_dull ?_ ?_ ?_ rfl (fun n o ho => .inl ho) (fun n ho => .inl ho) (fun _ _ ho => ho)
          (fun _ ho => ho) h.later
        · intro u
          by_cases hu : u = t
          · subst hu; simp only [upd_same]; exact Blk.pc (by simp)
          · simp only [upd_ne _ _ hu]; exact h.blk u
        · intro u
          by_cases hu : u = t
          · subst hu; simp only [upd_same]; simp [Thread.pend, Thread.held, hn]
          · simp only [upd_ne _ _ hu]; exact .refl _
        · intro u
          by_cases hu : u = t
          · subst hu; simp only [upd_same]; simp [Thread.act, hn]
          · simp only [upd_ne _ _ hu]
    · rw [List.append_nil]; exact h
  | finish t raw =>
    show Inv (es ++ (s.stepFinish t raw).2) (s.stepFinish t raw).1
    have hg' : Good (s.stepFinish t raw).1 := hg
    unfold State.stepFinish at hg' ⊢
    split
    · rename_i n hn
      simp only [hn] at hg'
      exact h.finish raw hn hg'
    · rw [List.append_nil]; exact h
  | loop =>
    simp only [State.step] at hg ⊢
    split
    · rw [List.append_nil]; exact h
    · rename_i cb ready hr
      simp only [hr] at hg
      have hin : ∀ c, c ∈ ready → c ∈ s.ready := fun c hc => by rw [hr]; exact List.mem_cons_of_mem _ hc
      have settleCase : ∀ n st, st ≠ .pending → (cb = .settle n (match st with | .done o => o | _ => .runtime) ∧
            (∃ o, st = .done o) ∨ cb = .cancel n ∧ st = .cancelled) → n < s.calls →
          Good (({ s with ready := ready } : State).settle n st) →
          Inv (es ++ []) (({ s with ready := ready } : State).settle n st) := by
        intro n st _ hcb hlt hg
        obtain ⟨f1, f2, f3, f4, f5, f6, f7, f8⟩ := settle_frame { s with ready := ready } n st
        refine h.quiet hg no_dull ?_ ?_ ?_ f7 ?_ ?_ ?_ ?_ ?_
        · intro u; rw [f2]; exact h.blk u
        · intro u; rw [f2]
        · intro u; rw [f2]
        · intro m o ho
          rcases settle_fut { s with ready := ready } n st m with e | ⟨e1, _, e2⟩
          · rw [e] at ho; exact .inl ho
          · rw [e2] at ho
            subst ho e1
            rcases hcb with ⟨hcb, _⟩ | ⟨_, hcb⟩
            · exact .inr (by rw [hr, hcb]; exact List.mem_cons_self ..)
            · cases hcb
        · intro m ho
          rcases settle_fut { s with ready := ready } n st m with e | ⟨e1, _, e2⟩
          · rw [e] at ho; exact .inl ho
          · rw [e2] at ho
            subst ho e1
            rcases hcb with ⟨_, o, hcb⟩ | ⟨hcb, _⟩
            · cases hcb
            · exact .inr (by rw [hr, hcb]; exact List.mem_cons_self ..)
        · intro m o ho
          rcases settle_ready ho with e | ⟨t, _, e⟩
          · exact hin _ e
          · cases e
        · intro m ho
          rcases settle_ready ho with e | ⟨t, _, e⟩
          · exact hin _ e
          · cases e
        · intro m hm
          rcases settle_fut { s with ready := ready } n st m with e | ⟨e1, _, e2⟩
          · rw [e]; exact h.later m hm
          · omega
      cases cb with
      | settle n o =>
        refine settleCase n (.done o) (by simp) (.inl ⟨rfl, o, rfl⟩) ?_ hg
        obtain ⟨t, raw, h1, -⟩ := h.settle n o (by rw [hr]; exact List.mem_cons_self ..)
        refine h.mem_lt (t := t) (.inl ?_)
        rw [h.act t]
        exact List.mem_append.2 (.inl (mem_returnedBy.2 ⟨raw, h1⟩))
      | cancel n =>
        refine settleCase n .cancelled (by simp) (.inr ⟨rfl, rfl⟩) ?_ hg
        exact h.dropLt n (h.cancCb n (by rw [hr]; exact List.mem_cons_self ..))
      | doneCb t =>
        refine h.quiet hg no_dull h.blk (fun _ => .refl _) (fun _ => rfl) rfl (fun n o ho => .inl ho) (fun n ho => .inl ho)
          ?_ ?_ h.later
        · intro n o ho
          rcases List.mem_append.1 (show Cb.settle n o ∈ ready ++ [Cb.ended t] from ho) with e | e
          · exact hin _ e
          · simp at e
        · intro n ho
          rcases List.mem_append.1 (show Cb.cancel n ∈ ready ++ [Cb.ended t] from ho) with e | e
          · exact hin _ e
          · simp at e
      | ended t =>
        rw [State.runCb] at hg ⊢
        split
        · rename_i ht
          rw [if_pos ht] at hg
          obtain ⟨f1, f2, f3, f4, f5, f6, f7, f8, f9, f10⟩ :=
            syncKeep_frame { s with ready := ready, running := s.running.erase t } t
          refine h.quiet hg no_dull ?_ ?_ ?_ f7 ?_ ?_ ?_ ?_ ?_
          · intro u; rw [f2]; exact h.blk u
          · intro u; rw [f2]
          · intro u; rw [f2]
          · intro n o ho; rw [f9] at ho; exact .inl ho
          · intro n ho; rw [f9] at ho; exact .inl ho
          · intro n o ho; rw [f10] at ho; exact hin _ ho
          · intro n ho; rw [f10] at ho; exact hin _ ho
          · intro n hn; rw [f9]; exact h.later n hn
        · rename_i ht
          rw [if_neg ht] at hg
          exact h.quiet hg no_dull h.blk (fun _ => .refl _) (fun _ => rfl) rfl (fun n o ho => .inl ho)
            (fun n ho => .inl ho) (fun n o ho => hin _ ho) (fun n ho => hin _ ho) h.later
  | cancel n =>
    simp only [State.step] at hg ⊢
    split
    · rename_i hn
      rw [if_pos hn] at hg
      exact h.cancel hn hg
    · rw [List.append_nil]; exact h
  | cancelAll =>
    have e : (s.step .cancelAll).2 = s.queued.map .dropped := by
      show s.queued.map Event.dropped ++ (if s.cancelAll.2 then [.attributeError] else []) = _
      rw [cancelAll_open h.good.pool]
      simp
    rw [e]
    exact h.cancelAll hg
  | releaseAll =>
    obtain ⟨f1, f2, f3, -⟩ := releaseAll_frame s
    refine h.still hg no_dull ?_ f1 f2 f3
    intro t
    show s.releaseAll.thread t = _ ∨ s.releaseAll.thread t = _
    rw [releaseAll_thread h.good.pool]
    split
    · exact .inr rfl
    · exact .inl rfl
  | wait d => exact h.still hg no_dull (fun _ => .inl rfl) rfl rfl rfl
  | timer =>
    simp only [State.step] at hg ⊢
    split
    · rw [List.append_nil]; exact h
    · rename_i tm htm
      simp only [htm] at hg
      split
      · rename_i hd
        rw [if_pos hd] at hg
        rcases releaseStep_cases s tm.scheduleTime tm.interval with ⟨k, l, x, he⟩ | ⟨t, free, k, l, x, hf, he⟩
        · rw [he] at hg ⊢
          exact h.still hg no_dull (fun _ => .inl rfl) rfl rfl rfl
        · rw [he] at hg ⊢
          refine h.still hg no_dull (fun u => ?_) rfl rfl rfl
          by_cases hu : u = t
          · subst hu; exact .inr (by simp [put_thread])
          · exact .inl (by simp [put_thread, hu])
      · rw [List.append_nil]; exact h

theorem Inv.run {es : List Event} {s : State} (h : Inv es s) (ops : List Op) :
    Inv (es ++ (s.runOps ops).2) (s.runOps ops).1 := by
  induction ops generalizing s es with
  | nil => rw [State.runOps, List.append_nil]; exact h
  | cons op ops ih =>
    rw [State.runOps]
    have := ih (h.step op)
    rwa [List.append_assoc] at this

end Verif.ThreadPool
