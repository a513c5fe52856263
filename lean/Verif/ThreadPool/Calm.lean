import Verif.ThreadPool.Hope

/-! Free threads run nothing, unless somebody cancels a call which runs or releases a thread which runs one. -/

namespace Verif.ThreadPool

def Cb.about (t : Nat) : Cb → Bool
  | .doneCb u => u == t
  | .ended u => u == t
  | _ => false

/-- How many handles are on their way which give thread `t` back -/
def State.back (s : State) (t : Nat) : Nat := s.ready.countP (Cb.about t)

structure Calm (s : State) : Prop where
  home : ∀ n t, s.home n = some t → t < s.count ∧ n < s.calls
  about : ∀ t, s.count ≤ t → s.back t = 0
  rest : ∀ t, t ∈ s.free ∨ t ∈ s.claimed → (∀ n, s.home n = some t → s.fut n ≠ .pending) ∧ s.back t = 0
  one : ∀ t, t ∈ s.running → s.back t ≤ 1 ∧
    (∀ n m, s.home n = some t → s.home m = some t → s.fut n = .pending → s.fut m = .pending → n = m) ∧
    (∀ n, s.home n = some t → s.fut n = .pending → s.back t = 0)
  act : ∀ t n, n ∈ (s.thread t).act → s.fut n = .pending
  own : ∀ t n, t ∈ s.free ∨ t ∈ s.running → n ∈ (s.thread t).pend ∨ n ∈ (s.thread t).act → s.home n = some t

theorem Calm.init : Calm {} where
  home n t h := by cases h
  about t _ := rfl
  rest t h := by simp at h
  one t h := by simp at h
  act t n h := by simp [Thread.act] at h
  own t n h := by simp at h

/-- Whatever does not touch futures and handles, and takes no thread out of use -/
theorem Calm.frame {s s' : State} (h : Calm s) (hcount : s'.count = s.count) (hcalls : s'.calls = s.calls)
    (hhome : s'.home = s.home) (hfut : s'.fut = s.fut) (hback : ∀ t, s'.back t = s.back t)
    (hfree : ∀ t, t ∈ s'.free → t ∈ s.free) (hrun : ∀ t, t ∈ s'.running → t ∈ s.running)
    (hclaim : ∀ t, t ∈ s'.claimed → t ∈ s.claimed ∨ t ∈ s.free)
    (hact : ∀ t n, n ∈ (s'.thread t).act → s.fut n = .pending)
    (hown : ∀ t n, t ∈ s'.free ∨ t ∈ s'.running → n ∈ (s'.thread t).pend ∨ n ∈ (s'.thread t).act →
      n ∈ (s.thread t).pend ∨ n ∈ (s.thread t).act) : Calm s' where
  home n t hn := by rw [hhome] at hn; rw [hcount, hcalls]; exact h.home n t hn
  about t ht := by rw [hcount] at ht; rw [hback]; exact h.about t ht
  rest t ht := by
    have ht' : t ∈ s.free ∨ t ∈ s.claimed := by
      rcases ht with e | e
      · exact .inl (hfree t e)
      · exact (hclaim t e).symm
    rw [hhome, hfut, hback]; exact h.rest t ht'
  one t ht := by rw [hhome, hfut, hback]; exact h.one t (hrun t ht)
  act t n hn := by rw [hfut]; exact hact t n hn
  own t n ht hn := by
    rw [hhome]
    exact h.own t n (ht.imp (hfree t) (hrun t)) (hown t n ht hn)

theorem back_append (s : State) (t : Nat) (cbs : List Cb) (thread : Nat → Thread) :
    ({ s with thread := thread, ready := s.ready ++ cbs } : State).back t = s.back t + cbs.countP (Cb.about t) := by
  simp [State.back, List.countP_append]

theorem countP_settle (t : Nat) (n : Nat) (o : Outcome) : [Cb.settle n o].countP (Cb.about t) = 0 := by
  simp [Cb.about]

theorem countP_cancels (t : Nat) (l : List Nat) : (l.map Cb.cancel).countP (Cb.about t) = 0 := by
  induction l with
  | nil => rfl
  | cons n l ih => rw [List.map_cons, List.countP_cons, ih]; simp [Cb.about]

/-- A future becomes done. -/
theorem Calm.settle {s : State} (h : Calm s) (n : Nat) (st : Stat) (hst : st ≠ .pending)
    (hact : ∀ t, n ∉ (s.thread t).act) : Calm (s.settle n st) := by
  obtain ⟨f1, f2, f3, f4, f5, f6, f7, f8⟩ := settle_frame s n st
  by_cases hp : s.fut n = .pending
  · have e : s.settle n st = { s with fut := upd s.fut n st, ready := s.ready ++ (s.home n).toList.map .doneCb } := by
      unfold State.settle; rw [if_pos hp]
    have hf : ∀ m, (s.settle n st).fut m = .pending → m ≠ n ∧ s.fut m = .pending := by
      intro m hm
      rw [e] at hm
      by_cases hmn : m = n
      · subst hmn; simp at hm; exact absurd hm hst
      · exact ⟨hmn, by simpa only [upd_ne _ _ hmn] using hm⟩
    have hb : ∀ t, (s.settle n st).back t = s.back t + if s.home n = some t then 1 else 0 := by
      intro t
      rw [e]
      simp only [State.back, List.countP_append]
      congr 1
      cases s.home n with
      | none => simp
      | some u => simp [Cb.about]
    have hf' : ∀ m, (s.settle n st).fut m ≠ .pending ∨ s.fut m = .pending := by
      intro m
      by_cases hm : (s.settle n st).fut m = .pending
      · exact .inr (hf m hm).2
      · exact .inl hm
    exact {
      home := fun m t hm => by rw [f8] at hm; rw [f1, f7]; exact h.home m t hm
      about := fun t ht => by
        rw [f1] at ht
        rw [hb, h.about t ht, if_neg]
        intro e; have := (h.home n t e).1; omega
      rest := fun t ht => by
        rw [f3, f5] at ht
        have := h.rest t ht
        have hn : s.home n ≠ some t := fun e => this.1 n e hp
        refine ⟨fun m hm hm' => ?_, ?_⟩
        · rw [f8] at hm; exact this.1 m hm (hf m hm').2
        · rw [hb, this.2, if_neg hn]
      one := fun t ht => by
        rw [f4] at ht
        obtain ⟨h1, h2, h3⟩ := h.one t ht
        rw [hb, f8]
        by_cases hn : s.home n = some t
        · rw [if_pos hn]
          refine ⟨by have := h3 n hn hp; omega, fun a b ha hb' pa pb => h2 a b ha hb' (hf a pa).2 (hf b pb).2, ?_⟩
          intro m hm pm
          exact absurd (h2 m n hm hn (hf m pm).2 hp) (hf m pm).1
        · rw [if_neg hn]
          exact ⟨h1, fun a b ha hb' pa pb => h2 a b ha hb' (hf a pa).2 (hf b pb).2, fun m hm pm => h3 m hm (hf m pm).2⟩
      act := fun t m hm => by
        rw [f2] at hm
        have hmn : m ≠ n := fun e' => hact t (e' ▸ hm)
        have := h.act t m hm
        rw [e]; simpa only [upd_ne _ _ hmn] using this
      own := fun t m ht hm => by
        rw [f3, f4] at ht
        rw [f2] at hm
        rw [f8]; exact h.own t m ht hm }
  · have e : s.settle n st = s := by unfold State.settle; rw [if_neg hp]
    rw [e]; exact h

/-- Nobody cancels a call which runs, or releases a claimed executor whose thread has a call. -/
def Orderly : State → List Op → Prop
  | _, [] => True
  | s, op :: ops =>
    (∀ n, op = .cancel n → ∀ t, (s.thread t).pc ≠ .running n) ∧
    (∀ h t, op = .release h → s.handles[h]? = some (some t) → (s.thread t).pc = .idle ∨ (s.thread t).pc = .blocked) ∧
    Orderly (s.step op).1 ops

theorem mem_act {th : Thread} {n : Nat} : n ∈ th.act ↔ th.pc = .running n := by
  unfold Thread.act
  split
  · rename_i m hm; rw [hm]; simp [eq_comm]
  · rename_i h
    simp only [List.not_mem_nil, false_iff]
    exact h n

/-- A call whose function ended, or which was taken out of a queue, does not run. -/
theorem Inv.not_act {es : List Event} {s : State} (h : Inv es s) {n : Nat}
    (hn : (∃ t raw, Event.returned t n raw ∈ es) ∨ Event.dropped n ∈ es) (u : Nat) : n ∉ (s.thread u).act := by
  intro hu
  have hru : n ∈ ranBy u es := by rw [h.act u]; exact List.mem_append.2 (.inr hu)
  rcases hn with ⟨t, raw, ht⟩ | hd
  · have hrt : n ∈ returnedBy t es := mem_returnedBy.2 ⟨raw, ht⟩
    have hrt' : n ∈ ranBy t es := by rw [h.act t]; exact List.mem_append.2 (.inl hrt)
    have e : t = u := submitted_unique h.nodup ((h.fifo t).subset (List.mem_append.2 (.inl hrt')))
      ((h.fifo u).subset (List.mem_append.2 (.inl hru)))
    subst e
    have hnd := h.nodup_to t
    rw [h.act t, List.append_assoc, List.nodup_append] at hnd
    exact hnd.2.2 n hrt n (List.mem_append.2 (.inl hu)) rfl
  · exact (h.drop n hd u).1 hru

/-- A thread gets a new call of the pool. -/
theorem Calm.run {s s' : State} (h : Calm s) {t : Nat} (hb : Blk (s.thread t))
    (hcount : s'.count = s.count ∧ (t ∈ s.free) ∨ s'.count = s.count + 1 ∧ t = s.count ∧ s.thread t = {})
    (hcalls : s'.calls = s.calls + 1) (hhome : s'.home = upd s.home s.calls (some t))
    (hfut : s'.fut = upd s.fut s.calls .pending) (hready : s'.ready = s.ready)
    (hfree : ∀ u, u ∈ s'.free → u ∈ s.free ∧ u ≠ t) (hrun : s'.running = t :: s.running) (hclaim : s'.claimed = s.claimed)
    (hclt : t ∉ s.claimed) (hfl : t ∈ s.free → t < s.count)
    (hth : s'.thread = upd s.thread t ((s.thread t).put (some s.calls))) : Calm s' := by
  have hback : ∀ u, s'.back u = s.back u := fun u => by simp only [State.back, hready]
  have hle : s.count ≤ s'.count := by rcases hcount with ⟨e, _⟩ | ⟨e, _⟩ <;> omega
  have hold : ∀ n u, n ≠ s.calls → s'.home n = some u → s.home n = some u := by
    intro n u hn hh; rw [hhome, upd_ne _ _ hn] at hh; exact hh
  have hnew : ∀ u, s.home s.calls ≠ some u := fun u e => absurd (h.home _ u e).2 (Nat.lt_irrefl _)
  have hfo : ∀ n, n ≠ s.calls → s'.fut n = s.fut n := fun n hn => by rw [hfut, upd_ne _ _ hn]
  -- the thread was at rest
  have hrest : (∀ n, s.home n = some t → s.fut n ≠ .pending) ∧ s.back t = 0 := by
    rcases hcount with ⟨_, e⟩ | ⟨_, e, _⟩
    · exact h.rest t (.inl e)
    · refine ⟨fun n hn => ?_, h.about t (by omega)⟩
      have := (h.home n t hn).1; omega
  have hpend : (s'.thread t).pend = (s.thread t).pend ++ [s.calls] := by rw [hth, upd_same, pend_put_some hb]
  have hact : (s'.thread t).act = (s.thread t).act := by rw [hth, upd_same, act_put]
  exact {
    home := fun n u hn => by
      by_cases e : n = s.calls
      · subst e
        rw [hhome, upd_same] at hn
        cases hn
        refine ⟨?_, by omega⟩
        rcases hcount with ⟨e1, e2⟩ | ⟨e1, e2, _⟩
        · have := hfl e2; omega
        · omega
      · have := h.home n u (hold n u e hn); omega
    about := fun u hu => by rw [hback]; exact h.about u (by omega)
    rest := fun u hu => by
      rw [hclaim] at hu
      have hne : u ≠ t := by
        rcases hu with e | e
        · exact (hfree u e).2
        · rintro rfl; exact hclt e
      have := h.rest u (hu.imp (fun e => (hfree u e).1) id)
      rw [hback]
      refine ⟨fun n hn => ?_, this.2⟩
      by_cases e : n = s.calls
      · subst e; rw [hhome, upd_same] at hn; cases hn; exact absurd rfl hne
      · rw [hfo n e]; exact this.1 n (hold n u e hn)
    one := fun u hu => by
      rw [hrun] at hu
      rw [hback]
      by_cases e : u = t
      · subst e
        rw [hrest.2]
        refine ⟨by omega, ?_, fun _ _ _ => rfl⟩
        have key : ∀ n, s'.home n = some u → s'.fut n = .pending → n = s.calls := by
          intro n hn pn
          refine Classical.byContradiction fun ne => ?_
          rw [hfo n ne] at pn
          exact hrest.1 n (hold n u ne hn) pn
        intro n m hn hm pn pm
        rw [key n hn pn, key m hm pm]
      · have hu' : u ∈ s.running := by
          rcases List.mem_cons.1 hu with e' | e'
          · exact absurd e' e
          · exact e'
        obtain ⟨h1, h2, h3⟩ := h.one u hu'
        have key : ∀ n, s'.home n = some u → n ≠ s.calls := by
          rintro n hn rfl
          rw [hhome, upd_same] at hn; cases hn; exact e rfl
        refine ⟨h1, ?_, ?_⟩
        · intro n m hn hm pn pm
          rw [hfo n (key n hn)] at pn
          rw [hfo m (key m hm)] at pm
          exact h2 n m (hold n u (key n hn) hn) (hold m u (key m hm) hm) pn pm
        · intro n hn pn
          rw [hfo n (key n hn)] at pn
          exact h3 n (hold n u (key n hn) hn) pn
    act := fun u n hn => by
      have hn' : n ∈ (s.thread u).act := by
        by_cases e : u = t
        · subst e; rw [hact] at hn; exact hn
        · rw [hth, upd_ne _ _ e] at hn; exact hn
      have := h.act u n hn'
      by_cases e : n = s.calls
      · subst e; rw [hfut, upd_same]
      · rw [hfo n e]; exact this
    own := fun u n hu hn => by
      rw [hrun] at hu
      by_cases e : u = t
      · subst e
        rw [hpend, hact] at hn
        have hold' : n ∈ (s.thread u).pend ∨ n ∈ (s.thread u).act → s.home n = some u := by
          intro hn
          rcases hcount with ⟨_, e2⟩ | ⟨_, _, e3⟩
          · exact h.own u n (.inl e2) hn
          · rw [e3] at hn; simp [Thread.pend, Thread.held, Thread.act] at hn
        by_cases e : n = s.calls
        · subst e; rw [hhome, upd_same]
        · rw [hhome, upd_ne _ _ e]
          refine hold' (hn.imp (fun hn => ?_) id)
          simpa [e] using hn
      · have hu' : u ∈ s.free ∨ u ∈ s.running := by
          rcases hu with e' | e'
          · exact .inl (hfree u e').1
          · exact .inr ((List.mem_cons.1 e').resolve_left e)
        rw [hth, upd_ne _ _ e] at hn
        have hh := h.own u n hu' hn
        have : n ≠ s.calls := by rintro rfl; exact hnew u hh
        rw [hhome, upd_ne _ _ this]; exact hh }

/-- A claimed executor gets a call. -/
theorem Calm.execute {s : State} (h : Calm s) {t : Nat} (hf : t ∉ s.free) (hr : t ∉ s.running) :
    Calm (s.submit t none) := by
  have hold : ∀ n u, (s.submit t none).home n = some u → n ≠ s.calls ∧ s.home n = some u := by
    intro n u hn
    have hn' : upd s.home s.calls none n = some u := hn
    by_cases e : n = s.calls
    · subst e; rw [upd_same] at hn'; cases hn'
    · rw [upd_ne _ _ e] at hn'; exact ⟨e, hn'⟩
  have hfo : ∀ n, n ≠ s.calls → (s.submit t none).fut n = s.fut n := fun n hn => upd_ne _ _ hn
  have hth : ∀ u, u ≠ t → (s.submit t none).thread u = s.thread u := fun u hu => by
    rw [(submit_frame ..).2.1, upd_ne _ _ hu]
  exact {
    home := fun n u hn => by
      have := h.home n u (hold n u hn).2
      exact ⟨this.1, by show n < s.calls + 1; omega⟩
    about := fun u hu => h.about u hu
    rest := fun u hu => by
      have := h.rest u hu
      exact ⟨fun n hn => by rw [hfo n (hold n u hn).1]; exact this.1 n (hold n u hn).2, this.2⟩
    one := fun u hu => by
      obtain ⟨h1, h2, h3⟩ := h.one u hu
      refine ⟨h1, fun n m hn hm pn pm => ?_, fun n hn pn => ?_⟩
      · rw [hfo n (hold n u hn).1] at pn
        rw [hfo m (hold m u hm).1] at pm
        exact h2 n m (hold n u hn).2 (hold m u hm).2 pn pm
      · rw [hfo n (hold n u hn).1] at pn
        exact h3 n (hold n u hn).2 pn
    act := fun u n hn => by
      have hn' : n ∈ (s.thread u).act := by
        by_cases e : u = t
        · subst e; rw [(submit_frame ..).2.1, upd_same, act_put] at hn; exact hn
        · rw [hth u e] at hn; exact hn
      by_cases e : n = s.calls
      · subst e; exact upd_same ..
      · rw [hfo n e]; exact h.act u n hn'
    own := fun u n hu hn => by
      have hne : u ≠ t := by rintro rfl; exact hu.elim hf hr
      rw [hth u hne] at hn
      have hh := h.own u n hu hn
      have : n ≠ s.calls := by rintro rfl; exact absurd (h.home _ u hh).2 (Nat.lt_irrefl _)
      show upd s.home s.calls none n = _
      rw [upd_ne _ _ this]; exact hh }

theorem back_ready {s : State} {cb : Cb} {ready : List Cb} (h : s.ready = cb :: ready) (t : Nat) :
    s.back t = ({ s with ready := ready } : State).back t + if cb.about t then 1 else 0 := by
  simp only [State.back, h, List.countP_cons]

/-- A handle is taken from the ready queue; it is about no thread. -/
theorem Calm.pop {s : State} (h : Calm s) {cb : Cb} {ready : List Cb} (hr : s.ready = cb :: ready)
    (ha : ∀ t, cb.about t = false) : Calm { s with ready := ready } := by
  refine h.frame rfl rfl rfl rfl ?_ (fun _ => id) (fun _ => id) (fun _ => .inl) h.act (fun _ _ _ => id)
  intro t
  have := back_ready hr t
  rw [ha t] at this
  simpa using this.symm

theorem Calm.step {es : List Event} {s : State} (hi : Inv es s) (ho : Owned s) (h : Calm s) (op : Op)
    (h1 : ∀ n, op = .cancel n → ∀ t, (s.thread t).pc ≠ .running n)
    (h2 : ∀ i t, op = .release i → s.handles[i]? = some (some t) →
      (s.thread t).pc = .idle ∨ (s.thread t).pc = .blocked) : Calm (s.step op).1 := by
  have hpool := hi.good.pool
  cases op with
  | run =>
    obtain ⟨f1, f2, f3, f4, f5, f6, f7⟩ := getFree_frame s
    have hnall := (getFree_good hpool).2.2.2.1
    simp only [State.all, List.mem_append, not_or] at hnall
    refine h.run (t := s.getFree.2) (hi.blk _) ?_ ?_ ?_ ?_ ?_ ?_ ?_ ?_ ?_ ?_ ?_
    · show s.getFree.1.count = _ ∧ _ ∨ s.getFree.1.count = _ ∧ _
      rcases getFree_cases s with ⟨t, free, hf, he⟩ | ⟨hf, he⟩
      · rw [he]; exact .inl ⟨rfl, by rw [hf]; exact List.mem_cons_self ..⟩
      · rw [he]; exact .inr ⟨rfl, rfl, hpool.fresh _ (Nat.le_refl _)⟩
    · show s.getFree.1.calls + 1 = _; rw [f2]
    · show upd s.getFree.1.home s.getFree.1.calls (some s.getFree.2) = _; rw [f2, f5]
    · show upd s.getFree.1.fut s.getFree.1.calls _ = _; rw [f2, f3]
    · show s.getFree.1.ready = _; rw [f4]
    · intro u hu
      have hu' : u ∈ s.getFree.1.free := hu
      refine ⟨?_, ?_⟩
      · rcases getFree_cases s with ⟨t, free, hf, he⟩ | ⟨hf, he⟩
        · rw [he] at hu'; rw [hf]; exact List.mem_cons_of_mem _ hu'
        · rw [he] at hu'; exact hu'
      · rintro rfl; exact hnall.1 hu'
    · show s.getFree.2 :: s.getFree.1.running = _; rw [f6]
    · exact f7
    · rw [← f7]; exact hnall.2.2
    · intro hm; exact hpool.lt (by simp [State.all, hm])
    · show upd s.getFree.1.thread s.getFree.2 ((s.getFree.1.thread s.getFree.2).put (some s.getFree.1.calls)) = _
      rw [f1, f2]
  | claim =>
    rcases getFree_cases s with ⟨t, free, hf, he⟩ | ⟨hf, he⟩
    · have e : (s.step .claim).1 = { s with free := free, claimed := t :: s.claimed, handles := s.handles ++ [some t] } := by
        show ({ s.getFree.1 with
          claimed := s.getFree.2 :: s.getFree.1.claimed, handles := s.getFree.1.handles ++ [some s.getFree.2] } : State) = _
        rw [he]
      rw [e]
      refine h.frame rfl rfl rfl rfl (fun _ => rfl) ?_ (fun _ => id) ?_ h.act (fun _ _ _ => id)
      · intro u hu; rw [hf]; exact List.mem_cons_of_mem _ hu
      · intro u hu
        rcases List.mem_cons.1 hu with e | e
        · subst e; exact .inr (by rw [hf]; exact List.mem_cons_self ..)
        · exact .inl e
    · have e : (s.step .claim).1 =
          { s with count := s.count + 1, claimed := s.count :: s.claimed, handles := s.handles ++ [some s.count] } := by
        show ({ s.getFree.1 with
          claimed := s.getFree.2 :: s.getFree.1.claimed, handles := s.getFree.1.handles ++ [some s.getFree.2] } : State) = _
        rw [he]
      rw [e]
      exact {
        home := fun n t hn => by have := h.home n t hn; exact ⟨by show t < s.count + 1; omega, this.2⟩
        about := fun t ht => h.about t (by have : s.count + 1 ≤ t := ht; omega)
        rest := fun t ht => by
          have ht' : t ∈ s.free ∨ t ∈ s.count :: s.claimed := ht
          rcases ht' with e | e
          · exact h.rest t (.inl e)
          · rcases List.mem_cons.1 e with e | e
            · subst e
              refine ⟨fun n hn => ?_, h.about _ (Nat.le_refl _)⟩
              exact absurd (h.home n _ hn).1 (Nat.lt_irrefl _)
            · exact h.rest t (.inr e)
        one := h.one
        act := h.act
        own := h.own }
  | execute i =>
    show Calm (s.stepExecute i).1
    unfold State.stepExecute
    split
    · rename_i t ht
      have := ho.apart t (List.mem_of_getElem? ht)
      exact h.execute this.1 this.2
    · exact h
    · exact h
  | release i =>
    show Calm (s.stepRelease i).1
    unfold State.stepRelease
    split
    · rename_i t ht
      have hpc := h2 i t rfl ht
      split
      · rename_i hq
        have hempty : (s.thread t).pend = [] ∧ (s.thread t).act = [] := by
          rcases hpc with e | e <;> simp [Thread.pend, Thread.held, Thread.act, e, hq]
        dsimp only
        split
        · rename_i hc
          obtain ⟨g1, g2, g3, g4, g5, g6, g7, g8, g9, g10⟩ := syncKeep_frame { s with claimed := s.claimed.erase t } t
          have hback : ∀ u, (({ s with claimed := s.claimed.erase t } : State).syncKeep t).back u = s.back u :=
            fun u => by simp only [State.back, g10]
          exact {
            home := fun n u hn => by
              have hn' : (({ s with claimed := s.claimed.erase t } : State).syncKeep t).home n = some u := hn
              rw [g8] at hn'
              show u < (({ s with claimed := s.claimed.erase t } : State).syncKeep t).count ∧
                n < (({ s with claimed := s.claimed.erase t } : State).syncKeep t).calls
              rw [g1, g7]; exact h.home n u hn'
            about := fun u hu => by
              have hu' : (({ s with claimed := s.claimed.erase t } : State).syncKeep t).count ≤ u := hu
              rw [g1] at hu'
              exact (hback u).trans (h.about u hu')
            rest := fun u hu => by
              have hu' : u ∈ (({ s with claimed := s.claimed.erase t } : State).syncKeep t).free ∨
                u ∈ (({ s with claimed := s.claimed.erase t } : State).syncKeep t).claimed := hu
              rw [g3, g5] at hu'
              have hin : u ∈ s.free ∨ u ∈ s.claimed := by
                rcases hu' with e | e
                · rcases List.mem_cons.1 e with e | e
                  · subst e; exact .inr hc
                  · exact .inl e
                · exact .inr (List.mem_of_mem_erase e)
              have := h.rest u hin
              refine ⟨fun n hn => ?_, (hback u).trans this.2⟩
              have hn' : (({ s with claimed := s.claimed.erase t } : State).syncKeep t).home n = some u := hn
              rw [g8] at hn'
              show (({ s with claimed := s.claimed.erase t } : State).syncKeep t).fut n ≠ _
              rw [g9]; exact this.1 n hn'
            one := fun u hu => by
              have hu' : u ∈ (({ s with claimed := s.claimed.erase t } : State).syncKeep t).running := hu
              rw [g4] at hu'
              have := h.one u hu'
              show (({ s with claimed := s.claimed.erase t } : State).syncKeep t).back u ≤ 1 ∧
                (∀ n m, (({ s with claimed := s.claimed.erase t } : State).syncKeep t).home n = some u →
                  (({ s with claimed := s.claimed.erase t } : State).syncKeep t).home m = some u →
                  (({ s with claimed := s.claimed.erase t } : State).syncKeep t).fut n = .pending →
                  (({ s with claimed := s.claimed.erase t } : State).syncKeep t).fut m = .pending → n = m) ∧
                (∀ n, (({ s with claimed := s.claimed.erase t } : State).syncKeep t).home n = some u →
                  (({ s with claimed := s.claimed.erase t } : State).syncKeep t).fut n = .pending →
                  (({ s with claimed := s.claimed.erase t } : State).syncKeep t).back u = 0)
              rw [hback, g8, g9]; exact this
            act := fun u n hn => by
              have hn' : n ∈ ((({ s with claimed := s.claimed.erase t } : State).syncKeep t).thread u).act := hn
              rw [g2] at hn'
              show (({ s with claimed := s.claimed.erase t } : State).syncKeep t).fut n = _
              rw [g9]; exact h.act u n hn'
            own := fun u n hu hn => by
              have hu' : u ∈ (({ s with claimed := s.claimed.erase t } : State).syncKeep t).free ∨
                u ∈ (({ s with claimed := s.claimed.erase t } : State).syncKeep t).running := hu
              have hn' : n ∈ ((({ s with claimed := s.claimed.erase t } : State).syncKeep t).thread u).pend ∨
                n ∈ ((({ s with claimed := s.claimed.erase t } : State).syncKeep t).thread u).act := hn
              rw [g3, g4] at hu'
              rw [g2] at hn'
              show (({ s with claimed := s.claimed.erase t } : State).syncKeep t).home n = _
              rw [g8]
              by_cases e : u = t
              · subst e
                have hn'' : n ∈ (s.thread u).pend ∨ n ∈ (s.thread u).act := hn'
                rw [hempty.1, hempty.2] at hn''
                simp at hn''
              · refine h.own u n ?_ hn'
                rcases hu' with e' | e'
                · exact .inl ((List.mem_cons.1 e').resolve_left e)
                · exact .inr e' }
        · exact h.frame rfl rfl rfl rfl (fun _ => rfl) (fun _ => id) (fun _ => id) (fun _ => .inl) h.act (fun _ _ _ => id)
      · exact h
    · exact h
  | fetch t =>
    show Calm (s.stepFetch t)
    unfold State.stepFetch
    split
    · rename_i ht
      refine h.frame rfl rfl rfl rfl (fun _ => rfl) (fun _ => id) (fun _ => id) (fun _ => .inl) ?_ ?_
      · intro u n hn
        by_cases hu : u = t
        · subst hu; simp only [upd_same, act_fetch ht.2] at hn; exact h.act u n hn
        · simp only [upd_ne _ _ hu] at hn; exact h.act u n hn
      · intro u n _ hn
        by_cases hu : u = t
        · subst hu; simp only [upd_same, act_fetch ht.2, pend_fetch_eq ht.2] at hn; exact hn
        · simp only [upd_ne _ _ hu] at hn; exact hn
    · exact h
  | start t =>
    show Calm (s.stepStart t).1
    unfold State.stepStart
    split
    · rename_i m hm
      split
      · rename_i hf
        refine h.frame rfl rfl rfl rfl (fun _ => rfl) (fun _ => id) (fun _ => id) (fun _ => .inl) ?_ ?_
        · intro u n hn
          by_cases hu : u = t
          · subst hu
            simp only [upd_same] at hn
            simp [Thread.act] at hn
            rw [hn]; exact hf
          · simp only [upd_ne _ _ hu] at hn; exact h.act u n hn
        · intro u n _ hn
          by_cases hu : u = t
          · subst hu
            simp only [upd_same] at hn
            rcases hn with hn | hn
            · exact .inl (by simp [Thread.pend, Thread.held] at hn ⊢; exact .inr hn)
            · simp [Thread.act] at hn
              exact .inl (by simp [Thread.pend, Thread.held, hm, hn])
          · simp only [upd_ne _ _ hu] at hn; exact hn
      · refine h.frame rfl rfl rfl rfl (fun _ => rfl) (fun _ => id) (fun _ => id) (fun _ => .inl) ?_ ?_
        · intro u n hn
          by_cases hu : u = t
          · subst hu; simp only [upd_same] at hn; simp [Thread.act] at hn
          · simp only [upd_ne _ _ hu] at hn; exact h.act u n hn
        · intro u n _ hn
          by_cases hu : u = t
          · subst hu
            simp only [upd_same] at hn
            rcases hn with hn | hn
            · exact .inl (by simp [Thread.pend, Thread.held] at hn ⊢; exact .inr hn)
            · simp [Thread.act] at hn
          · simp only [upd_ne _ _ hu] at hn; exact hn
    · exact h
  | finish t raw =>
    show Calm (s.stepFinish t raw).1
    unfold State.stepFinish
    split
    · rename_i m hm
      refine h.frame rfl rfl rfl rfl ?_ (fun _ => id) (fun _ => id) (fun _ => .inl) ?_ ?_
      · intro u; dsimp only; rw [back_append, countP_settle]; rfl
      · intro u n hn
        by_cases hu : u = t
        · subst hu; simp only [upd_same] at hn; simp [Thread.act] at hn
        · simp only [upd_ne _ _ hu] at hn; exact h.act u n hn
      · intro u n _ hn
        by_cases hu : u = t
        · subst hu
          simp only [upd_same] at hn
          rcases hn with hn | hn
          · exact .inl (by simp [Thread.pend, Thread.held, hm] at hn ⊢; exact hn)
          · simp [Thread.act] at hn
        · simp only [upd_ne _ _ hu] at hn; exact hn
    · exact h
  | loop =>
    simp only [State.step]
    split
    · exact h
    · rename_i cb ready hr
      have hmem : cb ∈ s.ready := by rw [hr]; exact List.mem_cons_self ..
      cases cb with
      | settle n o =>
        refine (h.pop hr (fun _ => rfl)).settle n _ (by simp) ?_
        intro t
        obtain ⟨u, raw, h', -⟩ := hi.settle n o hmem
        exact hi.not_act (.inl ⟨u, raw, h'⟩) t
      | cancel n =>
        refine (h.pop hr (fun _ => rfl)).settle n _ (by simp) ?_
        intro t
        exact hi.not_act (.inr (hi.cancCb n hmem)) t
      | doneCb t =>
        refine h.frame rfl rfl rfl rfl ?_ (fun _ => id) (fun _ => id) (fun _ => .inl) h.act (fun _ _ _ => id)
        intro u
        have hb := back_ready hr u
        show ({ s with ready := ready ++ [.ended t] } : State).back u = _
        rw [hb]
        by_cases e : t = u <;> simp [State.back, List.countP_append, Cb.about, e]
      | ended t =>
        have hb : ∀ u, ({ s with ready := ready } : State).back u ≤ s.back u := by
          intro u; rw [back_ready hr u]; omega
        have hbt : s.back t = ({ s with ready := ready } : State).back t + 1 := by
          rw [back_ready hr t]; simp [Cb.about]
        have hbu : ∀ u, u ≠ t → s.back u = ({ s with ready := ready } : State).back u := by
          intro u hu
          rw [back_ready hr u]
          simp [Cb.about, Ne.symm hu]
        rw [State.runCb]
        split
        · rename_i ht
          have ht : t ∈ s.running := ht
          obtain ⟨g1, g2, g3, g4, g5, g6, g7, g8, g9, g10⟩ :=
            syncKeep_frame { s with ready := ready, running := s.running.erase t } t
          have hback : ∀ u, (({ s with ready := ready, running := s.running.erase t } : State).syncKeep t).back u =
              ({ s with ready := ready } : State).back u := fun u => by simp only [State.back, g10]
          obtain ⟨o1, o2, o3⟩ := h.one t ht
          have hzero : ({ s with ready := ready } : State).back t = 0 := by omega
          have hnp : ∀ n, s.home n = some t → s.fut n ≠ .pending := by
            intro n hn hp
            have := o3 n hn hp
            omega
          exact {
            home := fun n u hn => by rw [g8] at hn; rw [g1, g7]; exact h.home n u hn
            about := fun u hu => by
              rw [g1] at hu
              rw [hback]
              have := h.about u hu
              have := hb u
              omega
            rest := fun u hu => by
              rw [g3, g5] at hu
              rw [hback, g8, g9]
              by_cases e : u = t
              · subst e; exact ⟨hnp, hzero⟩
              · have := h.rest u (by
                  rcases hu with e' | e'
                  · exact .inl ((List.mem_cons.1 e').resolve_left e)
                  · exact .inr e')
                exact ⟨this.1, by have := this.2; have := hb u; omega⟩
            one := fun u hu => by
              rw [g4] at hu
              have hu' : u ∈ s.running := List.mem_of_mem_erase hu
              have hne : u ≠ t := by
                rintro rfl
                have := hpool.nodup
                simp only [State.all, List.nodup_append] at this
                exact (List.Nodup.not_mem_erase this.2.1.1) hu
              rw [hback, g8, g9, ← hbu u hne]
              exact h.one u hu'
            act := fun u n hn => by rw [g2] at hn; rw [g9]; exact h.act u n hn
            own := fun u n hu hn => by
              rw [g3, g4] at hu
              rw [g2] at hn
              rw [g8]
              refine h.own u n ?_ hn
              rcases hu with e | e
              · rcases List.mem_cons.1 e with e | e
                · subst e; exact .inr ht
                · exact .inl e
              · exact .inr (List.mem_of_mem_erase e) }
        · rename_i ht
          have ht : t ∉ s.running := ht
          exact {
            home := h.home
            about := fun u hu => by have := h.about u hu; have := hb u; show ({ s with ready := ready } : State).back u = 0; omega
            rest := fun u hu => by
              have := h.rest u hu
              exact ⟨this.1, by have := this.2; have := hb u; show ({ s with ready := ready } : State).back u = 0; omega⟩
            one := fun u hu => by
              have hne : u ≠ t := by rintro rfl; exact ht hu
              have := h.one u hu
              rw [hbu u hne] at this
              exact this
            act := h.act
            own := h.own }
  | cancel n =>
    simp only [State.step]
    split
    · exact h.settle n _ (by simp) (fun t ht => h1 n rfl t (mem_act.1 ht))
    · exact h
  | cancelAll =>
    show Calm s.cancelAll.1
    rw [cancelAll_open hpool]
    refine h.frame rfl rfl rfl rfl ?_ (fun _ hm => absurd hm (by simp)) (fun _ hm => absurd hm (by simp))
      (fun _ hm => absurd hm (by simp)) ?_ (fun u n hm => absurd hm (by simp))
    · intro u
      simp only [State.back, List.countP_append]
      rw [countP_cancels]; rfl
    · intro u n hn
      refine h.act u n ?_
      dsimp only at hn
      split at hn
      · rwa [act_put] at hn
      · split at hn
        · rwa [act_drop] at hn
        · exact hn
  | releaseAll =>
    obtain ⟨f1, f2, f3, f4, f5, f6⟩ := releaseAll_frame s
    show Calm s.releaseAll
    refine h.frame f5 f1 f4 f2 (fun u => by simp only [State.back, f3]) (fun _ hm => absurd hm (by simp [State.releaseAll]))
      (fun _ hm => absurd hm (by simp [State.releaseAll])) (fun _ hm => absurd hm (by simp [State.releaseAll])) ?_
      (fun u n hm => absurd hm (by simp [State.releaseAll]))
    intro u n hn
    refine h.act u n ?_
    rw [releaseAll_thread hpool] at hn
    split at hn
    · rwa [act_put] at hn
    · exact hn
  | wait d => exact h.frame rfl rfl rfl rfl (fun _ => rfl) (fun _ => id) (fun _ => id) (fun _ => .inl) h.act (fun _ _ _ => id)
  | timer =>
    simp only [State.step]
    split
    · exact h
    · split
      · rename_i tm _ _
        rcases releaseStep_cases s tm.scheduleTime tm.interval with ⟨k, l, x, he⟩ | ⟨t, free, k, l, x, hf, he⟩
        · rw [he]
          exact h.frame rfl rfl rfl rfl (fun _ => rfl) (fun _ => id) (fun _ => id) (fun _ => .inl) h.act (fun _ _ _ => id)
        · rw [he]
          refine h.frame rfl rfl rfl rfl (fun _ => rfl) ?_ (fun _ => id) (fun _ => .inl) ?_ ?_
          · intro u hu; rw [hf]; exact List.mem_cons_of_mem _ hu
          · intro u n hn
            dsimp only at hn
            rw [put_thread] at hn
            split at hn
            · rename_i hu; subst hu; rw [act_put] at hn; exact h.act u n hn
            · exact h.act u n hn
          · intro u n _ hn
            dsimp only at hn
            rw [put_thread] at hn
            split at hn
            · rename_i hu; subst hu; rw [act_put, pend_put_none] at hn; exact hn
            · exact hn
      · exact h

theorem calm_run {es : List Event} {s : State} (hi : Inv es s) (ho : Owned s) (h : Calm s) (ops : List Op)
    (hop : Orderly s ops) : Calm (s.runOps ops).1 := by
  induction ops generalizing s es with
  | nil => exact h
  | cons op ops ih =>
    exact ih (hi.step op) (ho.step hi.good op) (h.step hi ho op hop.1 hop.2.1) hop.2.2

/-- A free thread runs nothing, and holds nothing that it would run. -/
theorem Calm.free {s : State} (h : Calm s) {t : Nat} (ht : t ∈ s.free) :
    (s.thread t).act = [] ∧ ∀ n, n ∈ (s.thread t).pend → s.fut n ≠ .pending := by
  have hr := h.rest t (.inl ht)
  constructor
  · rw [List.eq_nil_iff_forall_not_mem]
    intro n hn
    exact hr.1 n (h.own t n (.inl ht) (.inr hn)) (h.act t n hn)
  · intro n hn
    exact hr.1 n (h.own t n (.inl ht) (.inl hn))

end Verif.ThreadPool
