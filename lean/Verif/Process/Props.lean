/-
Properties C186 - C190: asynchronous processes.
-/
import Verif.Process.Model

namespace Verif.Process

/-! ### Invariants -/

/-- What always holds. -/
structure Inv (p : P) : Prop where
  same : p.alive = p.pipes
  code : ∀ c, p.returnCode = some c → p.os = some c
  fin : p.finished = true ↔ p.returnCode ≠ none
  closed : p.closed = true → p.os ≠ none
  finClosed : p.finished = true → p.closed = true
  answers : ∀ i c, (i, c) ∈ p.answers → p.returnCode = some c
  waiters : p.returnCode ≠ none → p.waiters = []

theorem close_cases (p : P) :
    (p.closed = true ∧ p.close = p) ∨
    (p.closed = false ∧ p.returnCode = none ∧ p.os = none ∧
      p.close = { p with closed := true, os := some (-9), killed := true }) ∨
    (p.closed = false ∧ (p.returnCode ≠ none ∨ p.os ≠ none) ∧ p.close = { p with closed := true }) := by
  obtain ⟨os, al, pi, cl, rc, fi, ws, an, ki⟩ := p
  cases cl <;> cases os <;> cases rc <;> simp [P.close, P.signal]

theorem close_closed (p : P) : p.close.closed = true := by
  rcases close_cases p with ⟨h, e⟩ | ⟨_, _, _, e⟩ | ⟨_, _, e⟩ <;> rw [e]
  exact h

theorem close_frame (p : P) : p.close.pipes = p.pipes ∧ p.close.answers = p.answers ∧ p.close.waiters = p.waiters := by
  rcases close_cases p with ⟨_, e⟩ | ⟨_, _, _, e⟩ | ⟨_, _, e⟩ <;> rw [e] <;> exact ⟨rfl, rfl, rfl⟩

theorem close_inv {p : P} (h : Inv p) : Inv p.close := by
  have hr : p.closed = false → p.returnCode = none := by
    intro hc
    cases hx : p.returnCode with
    | none => rfl
    | some c =>
      have := h.finClosed (h.fin.2 (by rw [hx]; exact nofun))
      rw [hc] at this; exact absurd this nofun
  rcases close_cases p with ⟨_, e⟩ | ⟨_, hn, _, e⟩ | ⟨hc, ho, e⟩
  · rw [e]; exact h
  · rw [e]
    exact ⟨h.same, fun c hx => absurd (hn.symm.trans hx) nofun, h.fin, fun _ => nofun, fun _ => rfl, h.answers, h.waiters⟩
  · rw [e]
    exact ⟨h.same, h.code, h.fin, fun _ => ho.resolve_left (fun hx => hx (hr hc)), fun _ => rfl, h.answers, h.waiters⟩

theorem step_inv {p : P} (h : Inv p) (o : Op) : Inv (step p o) := by
  cases o with
  | exit c =>
    refine ⟨h.same, ?_, h.fin, fun _ => by simp [step], h.finClosed, h.answers, h.waiters⟩
    intro x hx
    have := h.code x hx
    simp [step, this]
  | lost fd =>
    simp only [step, P.lost]
    split
    · have h' : Inv { p with pipes := p.pipes.erase fd, alive := p.alive.erase fd } :=
        ⟨by simp only [h.same], h.code, h.fin, h.closed, h.finClosed, h.answers, h.waiters⟩
      unfold P.maybeExited
      split
      · exact close_inv h'
      · exact h'
    · exact h
  | stdinLost => exact h
  | close => exact close_inv h
  | kill =>
    simp only [step]
    split
    · exact h
    · refine close_inv ⟨h.same, ?_, h.fin, fun _ => by simp [P.signal], h.finClosed, h.answers, h.waiters⟩
      intro c hc
      have := h.code c hc
      simp [P.signal, this]
  | wait i =>
    simp only [step, P.wait]
    split
    · next c hc =>
      refine ⟨h.same, h.code, h.fin, h.closed, h.finClosed, ?_, h.waiters⟩
      intro j x hx
      rcases List.mem_append.1 hx with hx | hx
      · exact h.answers j x hx
      · simp at hx; rw [hx.2]; exact hc
    · next hc =>
      exact ⟨h.same, h.code, h.fin, h.closed, h.finClosed, h.answers, fun hx => absurd hc hx⟩
  | stop i =>
    refine ⟨h.same, h.code, h.fin, h.closed, h.finClosed, h.answers, fun hx => ?_⟩
    simp only [step, h.waiters hx, List.map_nil]
  | finish =>
    simp only [step, P.finish]
    split
    · next hc =>
      simp only [Bool.and_eq_true, Bool.not_eq_true'] at hc
      have hr : p.returnCode = none := by
        cases hx : p.returnCode with
        | none => rfl
        | some c => exact absurd (h.fin.2 (by rw [hx]; exact nofun)) (by rw [hc.2]; exact nofun)
      split
      · exact h
      · next c ho =>
        refine ⟨h.same, fun x hx => by rw [← hx]; exact ho, by simp, fun _ => by rw [ho]; exact nofun, fun _ => hc.1, ?_,
          fun _ => rfl⟩
        intro j x hx
        rcases List.mem_append.1 hx with hx | hx
        · exact absurd (hr.symm.trans (h.answers j x hx)) nofun
        · obtain ⟨w, _, e⟩ := List.mem_map.1 hx
          simp at e
          rw [e.2]
    · exact h

theorem new_inv (a b : Bool) : Inv (P.new a b) :=
  ⟨rfl, nofun, by simp [P.new], nofun, nofun, nofun, fun h => absurd rfl h⟩

theorem run_inv (l : List Op) : ∀ p, Inv p → Inv (run p l) := by
  induction l with
  | nil => intro p h; exact h
  | cons o l ih => intro p h; exact ih _ (step_inv h o)

/-! ### C186: the end of a process is noticed -/

/-- Runs in which nobody closes or kills the process. -/
def untouched (l : List Op) : Prop := Op.close ∉ l ∧ Op.kill ∉ l

/-- If stdout or stderr is a pipe: when the connections of all of these are lost and the
loop ran the task, the code is known, everyone who waits and did not stop is told it, and
whoever waits later is told at once. -/
theorem C186_noticed_partial (a b : Bool) (hab : a = true ∨ b = true) (l : List Op)
    (hl : (run (P.new a b) l).pipes = []) :
    ∃ c, (run (P.new a b) (l ++ [.finish])).os = some c ∧ (run (P.new a b) (l ++ [.finish])).returnCode = some c ∧
      (∀ w ∈ (run (P.new a b) l).waiters, w.stopped = false → (w.id, c) ∈ (run (P.new a b) (l ++ [.finish])).answers) ∧
      ∀ i, (i, c) ∈ (run (P.new a b) (l ++ [.finish, .wait i])).answers := by
  have hi := run_inv l _ (new_inv a b)
  have key : ∀ (l : List Op) (p : P), Inv p → (p.pipes = [] → p.closed = true) →
      ((run p l).pipes = [] → (run p l).closed = true) := by
    intro l
    induction l with
    | nil => intro p _ h; exact h
    | cons o l ih =>
      intro p hi h
      refine ih _ (step_inv hi o) ?_
      have cl : ∀ q : P, q.close.closed = true := close_closed
      cases o with
      | exit c => exact h
      | lost fd =>
        simp only [step, P.lost]
        split
        · unfold P.maybeExited
          split
          · intro _; exact cl _
          · next hx =>
            intro hy
            simp only at hy
            exact absurd (by simp only [hi.same, hy]; rfl) hx
        · exact h
      | stdinLost => exact h
      | close => intro _; exact cl p
      | kill =>
        simp only [step]
        split
        · next hf => intro _; exact hi.finClosed hf
        · intro _; exact cl _
      | wait i =>
        simp only [step, P.wait]
        split <;> exact h
      | stop i => exact h
      | finish =>
        simp only [step, P.finish]
        split
        · next hc =>
          split
          · exact h
          · intro _; simp at hc; exact hc.1
        · exact h
  have hc := key l (P.new a b) (new_inv a b) (by rcases hab with rfl | rfl <;> simp [P.new]) hl
  have e1 : run (P.new a b) (l ++ [.finish]) = (run (P.new a b) l).finish := by simp [run, step]
  have e2 : ∀ i, run (P.new a b) (l ++ [.finish, .wait i]) = (run (P.new a b) l).finish.wait i := by
    intro i; simp [run, step]
  simp only [e1, e2]
  generalize run (P.new a b) l = p at *
  have hos : ∃ c, p.os = some c := Option.ne_none_iff_exists'.1 (hi.closed hc)
  obtain ⟨c, hos⟩ := hos
  refine ⟨c, ?_⟩
  cases hf : p.finished with
  | true =>
    have hrc : ∃ x, p.returnCode = some x := Option.ne_none_iff_exists'.1 (hi.fin.1 hf)
    obtain ⟨x, hx⟩ := hrc
    have : c = x := by have := hi.code x hx; rw [hos] at this; exact Option.some.inj this
    subst this
    have e : p.finish = p := by unfold P.finish; simp [hf]
    rw [e]
    refine ⟨hos, hx, ?_, fun i => by simp [P.wait, hx]⟩
    intro w hw
    rw [hi.waiters (by rw [hx]; exact nofun)] at hw
    exact absurd hw (by simp)
  | false =>
    have e : p.finish = { p with returnCode := some c, finished := true, waiters := [],
                                 answers := p.answers ++ (p.waiters.filter (fun w => !w.stopped)).map (fun w => (w.id, c)) } := by
      unfold P.finish
      rw [if_pos (by simp [hc, hf])]
      split
      · next hx => exact absurd (hos.symm.trans hx) nofun
      · next x hx =>
        have : c = x := by rw [hos] at hx; exact Option.some.inj hx
        subst this; rfl
    rw [e]
    refine ⟨hos, rfl, ?_, fun i => by simp [P.wait]⟩
    intro w hw hs
    refine List.mem_append.2 (.inr (List.mem_map.2 ⟨w, List.mem_filter.2 ⟨hw, by simp [hs]⟩, rfl⟩))

/-- If neither is a pipe, the end of the process is never noticed: as long as it is not
closed, whatever happens, `wait` gives nothing. -/
theorem C186_not_noticed_violated (l : List Op) (hl : untouched l) :
    (run (P.new false false) l).returnCode = none ∧ (run (P.new false false) l).answers = [] := by
  have key : ∀ (l : List Op) (p : P), untouched l → p.pipes = [] → p.closed = false → p.returnCode = none → p.answers = [] →
      (run p l).returnCode = none ∧ (run p l).answers = [] := by
    intro l
    induction l with
    | nil => intro p _ _ _ h1 h2; exact ⟨h1, h2⟩
    | cons o l ih =>
      intro p hu h1 h2 h3 h4
      have hu' : untouched l := ⟨fun hx => hu.1 (by simp [hx]), fun hx => hu.2 (by simp [hx])⟩
      refine ih _ hu' ?_ ?_ ?_ ?_
      all_goals cases o with
        | close => exact absurd (by simp) hu.1
        | kill => exact absurd (by simp) hu.2
        | _ => simp [step, P.lost, P.wait, P.finish, h1, h2, h3, h4]
  exact key l _ hl rfl rfl rfl rfl

/-! ### C187: what `wait` gives -/

/-- Every answer is the code with which the process ended. -/
theorem C187_answers (a b : Bool) (l : List Op) (i : Nat) (c : Int) (h : (i, c) ∈ (run (P.new a b) l).answers) :
    (run (P.new a b) l).os = some c := by
  have hi := run_inv l _ (new_inv a b)
  exact hi.code c (hi.answers i c h)

/-- How often `wait` was called by someone. -/
def calls (i : Nat) : List Op → Nat
  | [] => 0
  | .wait j :: l => (if j = i then 1 else 0) + calls i l
  | _ :: l => calls i l

/-- Nobody is told more often than they asked, and no one is forgotten: after the task ran,
as many were told or stopped as asked. -/
theorem C187_once (a b : Bool) (l : List Op) (i : Nat) :
    ((run (P.new a b) l).answers.filter (fun x => x.1 = i)).length
      + ((run (P.new a b) l).waiters.filter (fun w => w.id = i)).length ≤ calls i l := by
  have key : ∀ (l : List Op) (p : P),
      ((run p l).answers.filter (fun x => x.1 = i)).length + ((run p l).waiters.filter (fun w => w.id = i)).length
        ≤ calls i l + ((p.answers.filter (fun x => x.1 = i)).length + (p.waiters.filter (fun w => w.id = i)).length) := by
    intro l
    induction l with
    | nil => intro p; simp [run, calls]
    | cons o l ih =>
      intro p
      have h := ih (step p o)
      have cl : ∀ q : P, q.close.answers = q.answers ∧ q.close.waiters = q.waiters := fun q => (close_frame q).2
      have frame : ∀ q : P, step p o = q → q.answers = p.answers → q.waiters = p.waiters →
          (∀ j, o ≠ .wait j) →
          ((run p (o :: l)).answers.filter (fun x => x.1 = i)).length
            + ((run p (o :: l)).waiters.filter (fun w => w.id = i)).length
          ≤ calls i (o :: l) + ((p.answers.filter (fun x => x.1 = i)).length + (p.waiters.filter (fun w => w.id = i)).length) := by
        intro q e h1 h2 hw
        rw [e, h1, h2] at h
        have hc : calls i (o :: l) = calls i l := by cases o <;> first | rfl | exact absurd rfl (hw _)
        rw [hc]
        simpa [run, e] using h
      cases o with
      | exit c => exact frame _ rfl rfl rfl nofun
      | lost fd =>
        refine frame _ rfl ?_ ?_ nofun
        all_goals
          simp only [step, P.lost]
          split
          · unfold P.maybeExited
            split
            · simp only [cl]
            · rfl
          · rfl
      | stdinLost => exact frame _ rfl rfl rfl nofun
      | close => exact frame _ rfl (cl p).1 (cl p).2 nofun
      | kill =>
        refine frame _ rfl ?_ ?_ nofun
        all_goals
          simp only [step]
          split
          · rfl
          · simp only [cl, P.signal]
      | wait j =>
        have e : run p (.wait j :: l) = run (step p (.wait j)) l := rfl
        rw [e]
        refine Nat.le_trans h ?_
        simp only [step, P.wait, calls]
        split <;> by_cases hj : j = i <;> simp [List.filter_append, hj] <;> omega
      | stop j =>
        have e : run p (.stop j :: l) = run (step p (.stop j)) l := rfl
        rw [e]
        refine Nat.le_trans h ?_
        have hm : ∀ ws : List Waiter,
            ((ws.map (fun w => if w.id = j then { w with stopped := true } else w)).filter (fun w => w.id = i)).length
              = (ws.filter (fun w => w.id = i)).length := by
          intro ws
          induction ws with
          | nil => rfl
          | cons w ws ihw =>
            simp only [List.map_cons, List.filter_cons]
            by_cases hj : w.id = j <;> simp only [hj, if_true, if_false] <;> split <;> simp_all
        simp only [step, calls, hm]
        omega
      | finish =>
        have e : run p (.finish :: l) = run (step p .finish) l := rfl
        rw [e]
        refine Nat.le_trans h ?_
        have hm : ∀ (ws : List Waiter) (c : Int),
            (((ws.filter (fun w => !w.stopped)).map (fun w => (w.id, c))).filter (fun x => x.1 = i)).length
              ≤ (ws.filter (fun w => w.id = i)).length := by
          intro ws c
          induction ws with
          | nil => simp
          | cons w ws ihw =>
            by_cases hs : w.stopped = true <;> by_cases hj : w.id = i <;> simp [hs, hj] at ihw ⊢ <;> omega
        simp only [step, P.finish, calls]
        split
        · split
          · omega
          · next c _ =>
            have := hm p.waiters c
            simp only [List.filter_append, List.length_append, List.filter_nil, List.length_nil]
            omega
        · omega
  have := key l (P.new a b)
  simpa [P.new] using this

/-- When the code is known nobody waits. -/
theorem C187_nobody_waits (a b : Bool) (l : List Op) (h : (run (P.new a b) l).returnCode ≠ none) :
    (run (P.new a b) l).waiters = [] :=
  (run_inv l _ (new_inv a b)).waiters h

/-- Who stopped is not told: they are not among the answers of the task. -/
theorem C187_stopped_not_told (p : P) (i : Nat) (hs : ∀ w ∈ p.waiters, w.id = i → w.stopped = true)
    (ha : ∀ c, (i, c) ∉ p.answers) (c : Int) : (i, c) ∉ (step p .finish).answers := by
  simp only [step, P.finish]
  split
  · split
    · exact ha c
    · next x _ =>
      intro hx
      rcases List.mem_append.1 hx with hx | hx
      · exact ha c hx
      · obtain ⟨w, hw, e⟩ := List.mem_map.1 hx
        obtain ⟨hw, hst⟩ := List.mem_filter.1 hw
        simp at e
        rw [hs w hw e.1] at hst
        exact absurd hst nofun
  · exact ha c

/-! ### C188: only closing and killing ends a process -/

/-- A run in which the last pipe is lost only after the process ended. -/
def tidy : P → List Op → Prop
  | _, [] => True
  | p, o :: l => (∀ fd, o = .lost fd → p.os = none → (p.pipes.erase fd) ≠ [] ∨ fd ∉ p.pipes) ∧ tidy (step p o) l

/-- The code of the first end of the process. -/
def ownCode : List Op → Option Int
  | [] => none
  | .exit c :: _ => some c
  | _ :: l => ownCode l

/-- In such runs, if nobody closes or kills it, the process is not killed and its code is
its own. -/
theorem C188_own_end_partial (a b : Bool) (l : List Op) (hu : untouched l) (ht : tidy (P.new a b) l) :
    (run (P.new a b) l).killed = false ∧ (run (P.new a b) l).os = ownCode l := by
  have key : ∀ (l : List Op) (p : P), Inv p → untouched l → tidy p l → p.killed = false →
      (run p l).killed = false ∧ (run p l).os = (match p.os with | some c => some c | none => ownCode l) := by
    intro l
    induction l with
    | nil => intro p _ _ _ h; exact ⟨h, by cases hx : p.os <;> simp [run, ownCode, hx]⟩
    | cons o l ih =>
      intro p hi hu ht hk
      have hu' : untouched l := ⟨fun hx => hu.1 (by simp [hx]), fun hx => hu.2 (by simp [hx])⟩
      have ih' := ih (step p o) (step_inv hi o) hu' ht.2
      have frame : (step p o).killed = false → (step p o).os = p.os → (∀ c, o ≠ .exit c) →
          (run p (o :: l)).killed = false ∧
            (run p (o :: l)).os = (match p.os with | some c => some c | none => ownCode (o :: l)) := by
        intro h1 h2 h3
        have := ih' h1
        rw [h2] at this
        have hc : ownCode (o :: l) = ownCode l := by cases o <;> first | rfl | exact absurd rfl (h3 _)
        rw [hc]
        exact this
      cases o with
      | exit c =>
        have := ih' hk
        refine ⟨this.1, this.2.trans ?_⟩
        cases hx : p.os <;> simp [step, hx, ownCode]
      | lost fd =>
        have hcl : ∀ q : P, q.os ≠ none → q.killed = false → q.close.killed = false ∧ q.close.os = q.os := by
          intro q h1 h2
          rcases close_cases q with ⟨_, e⟩ | ⟨_, _, hn, e⟩ | ⟨_, _, e⟩
          · rw [e]; exact ⟨h2, rfl⟩
          · exact absurd hn h1
          · rw [e]; exact ⟨h2, rfl⟩
        have hboth : (step p (.lost fd)).killed = false ∧ (step p (.lost fd)).os = p.os := by
          simp only [step, P.lost]
          split
          · next hm =>
            unfold P.maybeExited
            split
            · next he =>
              refine hcl _ ?_ hk
              intro hos
              rcases ht.1 fd rfl hos with hx | hx
              · rw [hi.same] at he
                exact absurd (by simpa using he) hx
              · exact hx hm
            · exact ⟨hk, rfl⟩
          · exact ⟨hk, rfl⟩
        exact frame hboth.1 hboth.2 nofun
      | stdinLost => exact frame hk rfl nofun
      | close => exact absurd (by simp) hu.1
      | kill => exact absurd (by simp) hu.2
      | wait i =>
        refine frame ?_ ?_ nofun
        all_goals simp only [step, P.wait]; split <;> first | exact hk | rfl
      | stop i => exact frame hk rfl nofun
      | finish =>
        refine frame ?_ ?_ nofun
        all_goals
          simp only [step, P.finish]
          split
          · split <;> first | exact hk | rfl
          · first | exact hk | rfl
  have := key l _ (new_inv a b) hu ht rfl
  simpa [P.new] using this

/-- A process which closes its outputs before it ends is killed: its own code is lost. -/
theorem C188_killed_violated (c : Int) :
    (run (P.new true true) [.lost 1, .lost 2, .exit c, .finish]).killed = true ∧
      (run (P.new true true) [.lost 1, .lost 2, .exit c, .finish]).returnCode = some (-9) := by
  exact ⟨rfl, rfl⟩

/-! ### C189: waiting until the input is drained -/

/-- A call of `drain` which has to wait never ends, whatever happens after. -/
theorem C189_drain_hangs_violated (before after : List DOp) (i : Nat)
    (hi : ∀ j b, (j, b) ∈ (drun D.new before).ended → j ≠ i)
    (hp : (drun D.new before).paused = true) (hc : (drun D.new before).connLost = false)
    (ha : .drain i ∉ after) (b : Bool) : (i, b) ∉ (drun D.new (before ++ [.drain i] ++ after)).ended := by
  have own : ∀ (l : List DOp) (d : D), (∀ j o, d.waiter = some (j, o) → o = .process) →
      ∀ j o, (drun d l).waiter = some (j, o) → o = .process := by
    intro l
    induction l with
    | nil => intro d h; exact h
    | cons o l ih =>
      intro d h
      refine ih _ ?_
      cases o with
      | drain k =>
        simp only [dstep]
        split
        · exact h
        · split
          · exact h
          · intro j o e; simp at e; exact e.2.symm
      | pause => exact h
      | resume =>
        simp only [dstep, D.wake]
        split
        · exact h
        · split <;> exact nofun
      | lost f =>
        simp only [dstep]
        split
        · exact h
        · unfold D.wake
          split
          · exact h
          · split <;> exact nofun
  have key : ∀ (l : List DOp) (d : D), (∀ j o, d.waiter = some (j, o) → o = .process) →
      (∀ j b, (j, b) ∈ d.ended → j ≠ i) → DOp.drain i ∉ l → ∀ j b, (j, b) ∈ (drun d l).ended → j ≠ i := by
    intro l
    induction l with
    | nil => intro d _ h _; exact h
    | cons o l ih =>
      intro d hw h hn
      have hn' : DOp.drain i ∉ l := fun hx => hn (by simp [hx])
      have hw' := own [o] d hw
      refine ih (dstep d o) hw' ?_ hn'
      have wk : ∀ (q : D) (f : Bool), q.waiter = d.waiter → (q.wake f).ended = q.ended := by
        intro q f e
        unfold D.wake
        split
        · rfl
        · next k o hx =>
          have := hw k o (e.symm.trans hx)
          subst this
          rfl
      cases o with
      | drain k =>
        have hk : k ≠ i := fun e => hn (by simp [e])
        simp only [dstep]
        split
        · intro j b hx
          rcases List.mem_append.1 hx with hx | hx
          · exact h j b hx
          · simp at hx; rw [hx.1]; exact hk
        · split
          · intro j b hx
            rcases List.mem_append.1 hx with hx | hx
            · exact h j b hx
            · simp at hx; rw [hx.1]; exact hk
          · exact h
      | pause => exact h
      | resume => simp only [dstep]; rw [wk { d with paused := false } _ rfl]; exact h
      | lost f =>
        simp only [dstep]
        split
        · exact h
        · rw [wk { d with connLost := true } _ rfl]; exact h
  have hw0 := own before D.new nofun
  have e : drun D.new (before ++ [.drain i] ++ after)
      = drun { drun D.new before with waiter := some (i, .process) } after := by
    simp only [drun, List.foldl_append, List.foldl_cons, List.foldl_nil]
    congr 1
    simp only [dstep]
    rw [show List.foldl dstep D.new before = drun D.new before from rfl, if_neg (by rw [hc]; exact nofun),
      if_neg (by rw [hp]; exact nofun)]
  rw [e]
  intro hx
  exact key after { drun D.new before with waiter := some (i, .process) }
    (by intro j o h; simp at h; exact h.2.symm) hi ha i b hx rfl

/-- A call which does not have to wait ends at once: with an exception if the connection was
lost, without one if writing is not paused. -/
theorem C189_drain_at_once_partial (l : List DOp) (i : Nat)
    (h : (drun D.new l).paused = false ∨ (drun D.new l).connLost = true) :
    (drun D.new (l ++ [.drain i])).ended = (drun D.new l).ended ++ [(i, (drun D.new l).connLost)] := by
  have e : drun D.new (l ++ [.drain i]) = dstep (drun D.new l) (.drain i) := by simp [drun]
  rw [e]
  generalize drun D.new l = d at *
  obtain ⟨p, c, w, en⟩ := d
  simp only at h
  cases p <;> cases c <;> simp_all [dstep]

/-! ### C190: what the readers get -/

/-- All bytes of a pipe, in order. -/
def bytesOf (fd : Nat) : List COp → List Nat
  | [] => []
  | .call (.data f d) :: l => (if f = fd then d else []) ++ bytesOf fd l
  | _ :: l => bytesOf fd l

/-- Whether the connection of a pipe was lost. -/
def endedOf (fd : Nat) : List COp → Bool
  | [] => false
  | .call (.lost f) :: l => f == fd || endedOf fd l
  | _ :: l => endedOf fd l

def toOps (l : List Call) : List COp := l.map .call

theorem bytesOf_append (fd : Nat) (l m : List COp) : bytesOf fd (l ++ m) = bytesOf fd l ++ bytesOf fd m := by
  induction l with
  | nil => rfl
  | cons o l ih =>
    cases o with
    | connected => exact ih
    | call c => cases c with
      | data f d => simp only [List.cons_append, bytesOf, ih, List.append_assoc]
      | lost f => exact ih

theorem endedOf_append (fd : Nat) (l m : List COp) : endedOf fd (l ++ m) = (endedOf fd l || endedOf fd m) := by
  induction l with
  | nil => rfl
  | cons o l ih =>
    cases o with
    | connected => exact ih
    | call c => cases c with
      | data f d => exact ih
      | lost f => simp only [List.cons_append, endedOf, ih, Bool.or_assoc]

theorem call_gets (c : C) (x : Call) :
    (c.call x).got1 = c.got1 ++ bytesOf 1 [.call x] ∧ (c.call x).got2 = c.got2 ++ bytesOf 2 [.call x] ∧
    (c.call x).ended1 = (c.ended1 || endedOf 1 [.call x]) ∧ (c.call x).ended2 = (c.ended2 || endedOf 2 [.call x]) ∧
    (c.call x).pending = c.pending := by
  cases x with
  | data fd d =>
    simp only [C.call]
    by_cases h1 : fd = 1
    · subst h1; simp [bytesOf, endedOf]
    · by_cases h2 : fd = 2
      · subst h2; simp [bytesOf, endedOf]
      · simp [bytesOf, endedOf, h1, h2]
  | lost fd =>
    simp only [C.call]
    by_cases h0 : fd = 0
    · subst h0; simp [bytesOf, endedOf]
    · by_cases h1 : fd = 1
      · subst h1; simp [bytesOf, endedOf]
      · by_cases h2 : fd = 2
        · subst h2; simp [bytesOf, endedOf]
        · simp [bytesOf, endedOf, h0, h1, h2]

theorem calls_get (l : List Call) : ∀ c : C,
    (l.foldl C.call c).got1 = c.got1 ++ bytesOf 1 (toOps l) ∧ (l.foldl C.call c).got2 = c.got2 ++ bytesOf 2 (toOps l) ∧
    (l.foldl C.call c).ended1 = (c.ended1 || endedOf 1 (toOps l)) ∧
    (l.foldl C.call c).ended2 = (c.ended2 || endedOf 2 (toOps l)) := by
  induction l with
  | nil => intro c; simp [toOps, bytesOf, endedOf]
  | cons x l ih =>
    intro c
    obtain ⟨h1, h2, h3, h4⟩ := ih (c.call x)
    obtain ⟨g1, g2, g3, g4, _⟩ := call_gets c x
    have e : toOps (x :: l) = [.call x] ++ toOps l := rfl
    rw [e, bytesOf_append, bytesOf_append, endedOf_append, endedOf_append, List.foldl_cons, h1, h2, h3, h4, g1, g2, g3, g4]
    simp only [List.append_assoc, Bool.or_assoc, and_self]

/-- Once the process is connected its readers have what came from its pipes, from the
beginning, in order, and are told of their ends; what came before is not lost. -/
theorem C190_readers (l m : List COp) :
    (crun C.new (l ++ [.connected] ++ m)).got1 = bytesOf 1 (l ++ m) ∧
    (crun C.new (l ++ [.connected] ++ m)).got2 = bytesOf 2 (l ++ m) ∧
    (crun C.new (l ++ [.connected] ++ m)).ended1 = endedOf 1 (l ++ m) ∧
    (crun C.new (l ++ [.connected] ++ m)).ended2 = endedOf 2 (l ++ m) := by
  -- what was given and what is kept is what came
  let Has (c : C) (l : List COp) : Prop :=
    c.got1 ++ bytesOf 1 (toOps (c.pending.getD [])) = bytesOf 1 l ∧
    c.got2 ++ bytesOf 2 (toOps (c.pending.getD [])) = bytesOf 2 l ∧
    (c.ended1 || endedOf 1 (toOps (c.pending.getD []))) = endedOf 1 l ∧
    (c.ended2 || endedOf 2 (toOps (c.pending.getD []))) = endedOf 2 l
  have st : ∀ (c : C) (l : List COp) (o : COp), Has c l → Has (cstep c o) (l ++ [o]) := by
    intro c l o h
    obtain ⟨h1, h2, h3, h4⟩ := h
    cases o with
    | call x =>
      simp only [cstep]
      cases hp : c.pending with
      | none =>
        rw [hp] at h1 h2 h3 h4
        simp only [Option.getD_none, toOps, List.map_nil, bytesOf, endedOf, List.append_nil, Bool.or_false] at h1 h2 h3 h4
        obtain ⟨g1, g2, g3, g4, g5⟩ := call_gets c x
        simp only [Has, g5, hp, Option.getD_none, toOps, List.map_nil, g1, g2, g3, g4, h1, h2, h3, h4, bytesOf_append,
          endedOf_append]
        simp [bytesOf, endedOf]
      | some q =>
        rw [hp] at h1 h2 h3 h4
        simp only [Option.getD_some] at h1 h2 h3 h4
        simp only [Has, Option.getD_some]
        have e : toOps (q ++ [x]) = toOps q ++ [.call x] := by simp [toOps]
        rw [e]
        simp only [bytesOf_append, endedOf_append, ← List.append_assoc, ← Bool.or_assoc, h1, h2, h3, h4, and_self]
    | connected =>
      have hb : ∀ fd, bytesOf fd (l ++ [.connected]) = bytesOf fd l := by intro fd; simp [bytesOf_append, bytesOf]
      have he : ∀ fd, endedOf fd (l ++ [.connected]) = endedOf fd l := by intro fd; simp [endedOf_append, endedOf]
      simp only [Has, hb, he]
      simp only [cstep]
      cases hp : c.pending with
      | none => rw [hp] at h1 h2 h3 h4; simp only [hp]; exact ⟨h1, h2, h3, h4⟩
      | some q =>
        rw [hp] at h1 h2 h3 h4
        obtain ⟨g1, g2, g3, g4⟩ := calls_get q c
        simp only [Option.getD_some] at h1 h2 h3 h4
        simp only [Option.getD_none, toOps, List.map_nil, bytesOf, endedOf, List.append_nil, Bool.or_false, g1, g2, g3, g4]
        exact ⟨h1, h2, h3, h4⟩
  have all : ∀ (m : List COp) (c : C) (l : List COp), Has c l → Has (crun c m) (l ++ m) := by
    intro m
    induction m with
    | nil => intro c l h; simpa [crun] using h
    | cons o m ih =>
      intro c l h
      have := ih _ _ (st c l o h)
      simpa [crun] using this
  have none_ : ∀ (m : List COp) (c : C), c.pending = none → (crun c m).pending = none := by
    intro m
    induction m with
    | nil => intro c h; exact h
    | cons o m ih =>
      intro c h
      refine ih _ ?_
      cases o with
      | call x => simp only [cstep, h]; exact (call_gets c x).2.2.2.2.trans h
      | connected => simp only [cstep, h]
  have h := all (l ++ [.connected] ++ m) C.new [] ⟨rfl, rfl, rfl, rfl⟩
  have hn : (crun C.new (l ++ [.connected] ++ m)).pending = none := by
    have e : crun C.new (l ++ [.connected] ++ m) = crun (cstep (crun C.new l) .connected) m := by simp [crun]
    rw [e]
    refine none_ m _ ?_
    simp only [cstep]
    split
    · next hx => exact hx
    · rfl
  simp only [Has, hn, Option.getD_none, toOps, List.map_nil, bytesOf, endedOf, List.append_nil, Bool.or_false,
    List.nil_append] at h
  have hb : ∀ fd, bytesOf fd (l ++ [.connected] ++ m) = bytesOf fd (l ++ m) := by
    intro fd; simp [bytesOf_append, bytesOf]
  have he : ∀ fd, endedOf fd (l ++ [.connected] ++ m) = endedOf fd (l ++ m) := by
    intro fd; simp [endedOf_append, endedOf]
  simp only [hb, he] at h
  exact h

/-! ### Examples -/

-- C186, C187: a process with both pipes, one who waits, one who stops
example : (run (P.new true true) [.wait 7, .wait 8, .stop 8, .lost 1, .exit 3, .lost 2, .finish, .wait 9]).answers
    = [(7, 3), (9, 3)] := by decide

-- C186: nothing is a pipe
example : (run (P.new false false) [.wait 7, .exit 0, .finish]).answers = [] := by decide

-- C188
example : tidy (P.new true true) [.lost 1, .exit 3, .lost 2, .finish] := by
  simp [tidy, P.new, step, P.lost, P.maybeExited]

example : (run (P.new true true) [.lost 1, .exit 3, .lost 2, .finish]).returnCode = some 3 := by decide

-- C189
example : (drun D.new [.drain 1, .pause, .drain 2, .resume, .drain 3, .lost false, .drain 4]).ended
    = [(1, false), (3, false), (4, true)] := by decide

-- C190
example : (crun C.new [.call (.data 1 [1]), .call (.data 2 [9]), .call (.lost 1), .connected, .call (.data 2 [8])])
    = ⟨none, [1], [9, 8], true, false⟩ := by decide

end Verif.Process
