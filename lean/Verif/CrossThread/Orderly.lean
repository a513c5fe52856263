import Verif.CrossThread.Lemmas
/-! Schedules in which `add_done_callback`, `remove_done_callback`, `cancel`, the first part of `set_result` / `set_exception`, and
`while callbacks: callbacks.pop()` are not interleaved with other threads (as if each held a lock). -/
namespace Verif.CrossThread

/-- Within one of these sections. -/
def WPc.critical : WPc → Bool
  | .append => true
  | .remove _ => true
  | .delete _ => true
  | _ => false

def SPc.critical : SPc → Bool
  | .store _ => true
  | .mark _ => true
  | .sched (some _) => true
  | .pop _ => true
  | .push (some _) _ => true
  | .cancelMark _ => true
  | _ => false

/-- While a thread is within one of these sections no other goes on. -/
def Orderly (calls : Nat → Call) (s : State) : List Op → Prop
  | [] => True
  | op :: ops =>
    (∀ i, (s.waiter i).critical = true → op = .waiter i) ∧ (∀ j, (s.setter j).critical = true → op = .setter j) ∧
      Orderly calls (s.step calls op) ops

/-- What waiting for a future completed by the call reports. -/
def Call.outcome : Call → Report
  | .setResult v => .value v
  | .setException e => .exception e
  | .cancel => .cancelledError

/-- The call has completed the future. -/
def Decided (call : Call) (s : State) : Prop := s.word.done = true ∧ s.getResult = call.outcome

/-- Where the thread which completes the future is, and what it has done so far. -/
def Phase (call : Call) (s : State) : SPc → Prop
  | .store w => w = {} ∧ s.word = {} ∧ call ≠ .cancel
  | .mark w => w = {} ∧ s.word = {} ∧ call ≠ .cancel ∧ s.result = call.payload
  | .sched (some w) => w = {} ∧ s.word = {} ∧ call = .cancel
  | .pop (some w) => w = {} ∧ s.word = {} ∧ call = .cancel ∧ s.callbacks ≠ []
  | .push (some w) _ => w = {} ∧ s.word = {} ∧ call = .cancel
  | .cancelMark w => w = {} ∧ s.word = {} ∧ call = .cancel ∧ s.callbacks = []
  | .sched none => Decided call s
  | .pop none => Decided call s ∧ s.callbacks ≠ []
  | .push none _ => Decided call s
  | .wake => Decided call s
  | .finished => Decided call s
  | _ => False

/-- It will wake up the loop. -/
def SPc.waking : SPc → Bool
  | .sched _ => true
  | .pop _ => true
  | .push _ _ => true
  | .cancelMark _ => true
  | .wake => true
  | _ => false

/-- The invariant of orderly runs; `c` is the thread which completes the future. -/
structure Good (calls : Nat → Call) (c : Option Nat) (s : State) : Prop where
  others : ∀ k, c ≠ some k → s.setter k = .start ∨ (s.setter k = .refused ∧ s.word.done = true)
  unset : c = none → s.word = {}
  phase : ∀ j, c = some j → Phase (calls j) s (s.setter j)
  wcrit : ∀ i k, (s.waiter i).critical = true → (s.waiter k).critical = true → i = k
  wscrit : ∀ i j, (s.waiter i).critical = true → (s.setter j).critical = false
  kept : ∀ i, (s.waiter i = .wake ∨ s.waiter i = .blocked) → s.event i = false →
    i ∈ s.callbacks ∨ i ∈ s.ready ∨ ∃ j a, s.setter j = .push a i
  drained : s.word.done = true → s.callbacks ≠ [] →
    ∃ j, c = some j ∧ (s.setter j = .sched none ∨ s.setter j = .pop none ∨ ∃ i, s.setter j = .push none i)
  told : ∀ i, (s.event i = true ∨ s.waiter i = .getResult ∨ s.waiter i = .pushReady) → s.word.done = true
  adding : ∀ i, s.waiter i = .append → s.word.done = false
  chosen : s.ready ≠ [] → c ≠ none
  woken : s.ready ≠ [] → s.asleep = false ∨ s.pending = true ∨ (∃ j, (s.setter j).waking = true) ∨ ∃ i, s.waiter i = .wake
  reports : ∀ i r, s.waiter i = .finished r → r = .timeoutError ∨ ∃ j, c = some j ∧ s.word.done = true ∧ r = (calls j).outcome
  remove : ∀ i k, s.waiter i = .remove k → k ≤ s.callbacks.length
  delete : ∀ i k, s.waiter i = .delete k → s.callbacks[k]? = some i

theorem good_init (calls : Nat → Call) : Good calls none {} where
  others := fun k _ => Or.inl rfl
  unset := fun _ => rfl
  phase := nofun
  wcrit := nofun
  wscrit := nofun
  kept := by intro i h; rcases h with h | h <;> cases h
  drained := fun h => by cases h
  told := by intro i h; rcases h with h | h | h <;> cases h
  adding := nofun
  chosen := fun h => absurd rfl h
  woken := fun h => absurd rfl h
  reports := nofun
  remove := nofun
  delete := nofun

/-- Nobody completes the future just now. -/
theorem Good.calm {calls : Nat → Call} {c : Option Nat} {s : State} (h : Good calls c s) (hs : ∀ j, (s.setter j).critical = false) :
    (c = none ∧ s.word = {}) ∨ ∃ j, c = some j ∧ Decided (calls j) s ∧
      (s.setter j = .sched none ∨ (∃ i, s.setter j = .push none i) ∨ s.setter j = .wake ∨ s.setter j = .finished) := by
  cases c with
  | none => exact Or.inl ⟨rfl, h.unset rfl⟩
  | some j =>
    right
    refine ⟨j, rfl, ?_⟩
    have hp := h.phase j rfl
    have hc := hs j
    generalize s.setter j = pc at hp hc
    cases pc with
    | start => exact hp.elim
    | store w => cases hc
    | mark w => cases hc
    | sched a => cases a with
      | none => exact ⟨hp, Or.inl rfl⟩
      | some w => cases hc
    | pop a => cases hc
    | push a i => cases a with
      | none => exact ⟨hp, Or.inr (Or.inl ⟨i, rfl⟩)⟩
      | some w => cases hc
    | cancelMark w => cases hc
    | wake => exact ⟨hp, Or.inr (Or.inr (Or.inl rfl))⟩
    | finished => exact ⟨hp, Or.inr (Or.inr (Or.inr rfl))⟩
    | refused => exact hp.elim
    | indexError => exact hp.elim

theorem Phase.frame {call : Call} {s t : State} {pc : SPc} (h : Phase call s pc) (hcrit : pc.critical = false) (hw : t.word = s.word)
    (hr : t.result = s.result) : Phase call t pc := by
  have hd : Decided call s → Decided call t := by
    intro hd
    unfold Decided State.getResult at hd ⊢
    rw [hw, hr]
    exact hd
  cases pc with
  | start => exact h
  | store w => cases hcrit
  | mark w => cases hcrit
  | sched a => cases a with
    | none => exact hd h
    | some w => cases hcrit
  | pop a => cases hcrit
  | push a i => cases a with
    | none => exact hd h
    | some w => cases hcrit
  | cancelMark w => cases hcrit
  | wake => exact hd h
  | finished => exact hd h
  | refused => exact h
  | indexError => exact h

/-- A step of the waiter `i`. -/
theorem Good.wmove {calls : Nat → Call} {c : Option Nat} {s t : State} (h : Good calls c s) (i : Nat) (pc : WPc)
    (hs : ∀ j, (s.setter j).critical = false) (hws : ∀ k, k ≠ i → (s.waiter k).critical = false)
    (e1 : t.word = s.word) (e2 : t.result = s.result) (e3 : t.setter = s.setter) (e4 : t.event = s.event) (e5 : t.asleep = s.asleep)
    (e6 : t.waiter = upd s.waiter i pc)
    (cA : ∀ x, x ≠ i → x ∈ s.callbacks → x ∈ t.callbacks)
    (cB : s.word.done = true → s.callbacks = [] → t.callbacks = [])
    (rA : ∀ x, x ∈ s.ready → x ∈ t.ready) (rB : t.ready ≠ [] → s.ready ≠ [] ∨ (pc = .wake ∧ c ≠ Option.none))
    (pA : s.pending = true → t.pending = true) (pB : s.waiter i = .wake → t.pending = true)
    (k1 : (pc = .wake ∨ pc = .blocked) → s.event i = false → i ∈ t.callbacks ∨ i ∈ t.ready ∨ ∃ j a, s.setter j = .push a i)
    (k2 : (pc = .getResult ∨ pc = .pushReady) → s.word.done = true)
    (k3 : pc = .append → s.word.done = false)
    (k4 : ∀ r, pc = .finished r → r = .timeoutError ∨ ∃ j, c = some j ∧ s.word.done = true ∧ r = (calls j).outcome)
    (k5 : ∀ k, pc = .remove k → k ≤ t.callbacks.length) (k6 : ∀ k, pc = .delete k → t.callbacks[k]? = some i) : Good calls c t := by
  have wi : t.waiter i = pc := by rw [e6]; exact upd_same _ _ _
  have wk : ∀ k, k ≠ i → t.waiter k = s.waiter k := fun k hk => by rw [e6]; exact upd_ne _ _ hk
  have wc : ∀ k, (t.waiter k).critical = true → k = i := by
    intro k hk
    refine Classical.byContradiction fun hne => ?_
    rw [wk k hne, hws k hne] at hk
    cases hk
  constructor
  · intro k hk; rw [e3, e1]; exact h.others k hk
  · intro hc; rw [e1]; exact h.unset hc
  · intro j hj; rw [e3]; exact (h.phase j hj).frame (hs j) e1 e2
  · intro a b ha hb; rw [wc a ha, wc b hb]
  · intro a j _; rw [e3]; exact hs j
  · intro k hk he
    rw [e4] at he
    rw [e3]
    by_cases hki : k = i
    · subst hki; rw [wi] at hk; exact k1 hk he
    · rw [wk k hki] at hk
      rcases h.kept k hk he with hm | hm | hm
      · exact Or.inl (cA k hki hm)
      · exact Or.inr (Or.inl (rA k hm))
      · exact Or.inr (Or.inr hm)
  · intro hd hne
    rw [e1] at hd
    rw [e3]
    exact h.drained hd (fun he => hne (cB hd he))
  · intro k hk
    rw [e1]
    rw [e4] at hk
    by_cases hki : k = i
    · subst hki
      rw [wi] at hk
      rcases hk with hk | hk
      · exact h.told k (Or.inl hk)
      · exact k2 hk
    · rw [wk k hki] at hk
      exact h.told k hk
  · intro k hk
    rw [e1]
    by_cases hki : k = i
    · subst hki; rw [wi] at hk; exact k3 hk
    · rw [wk k hki] at hk; exact h.adding k hk
  · intro hne
    rcases rB hne with hr | hr
    · exact h.chosen hr
    · exact hr.2
  · intro hne
    rw [e5, e3]
    rcases rB hne with hr | hr
    · rcases h.woken hr with hw | hw | hw | ⟨k, hw⟩
      · exact Or.inl hw
      · exact Or.inr (Or.inl (pA hw))
      · exact Or.inr (Or.inr (Or.inl hw))
      · by_cases hki : k = i
        · subst hki; exact Or.inr (Or.inl (pB hw))
        · exact Or.inr (Or.inr (Or.inr ⟨k, by rw [wk k hki]; exact hw⟩))
    · exact Or.inr (Or.inr (Or.inr ⟨i, by rw [wi]; exact hr.1⟩))
  · intro k r hk
    rw [e1]
    by_cases hki : k = i
    · subst hki; rw [wi] at hk; exact k4 r hk
    · rw [wk k hki] at hk; exact h.reports k r hk
  · intro k m hk
    by_cases hki : k = i
    · subst hki; rw [wi] at hk; exact k5 m hk
    · have := wc k (by rw [hk]; rfl); exact absurd this hki
  · intro k m hk
    by_cases hki : k = i
    · subst hki; rw [wi] at hk; exact k6 m hk
    · have := wc k (by rw [hk]; rfl); exact absurd this hki

theorem step_waiter_good {calls : Nat → Call} {c : Option Nat} {s : State} (h : Good calls c s) (i : Nat)
    (hs : ∀ j, (s.setter j).critical = false) (hws : ∀ k, k ≠ i → (s.waiter k).critical = false) :
    Good calls c (s.step calls (.waiter i)) := by
  have hdone : s.word.done = true → ∃ j, c = some j ∧ Decided (calls j) s := by
    intro hd
    rcases h.calm hs with ⟨_, hw⟩ | ⟨j, hj, hdj, _⟩
    · rw [hw] at hd; cases hd
    · exact ⟨j, hj, hdj⟩
  simp only [State.step]
  cases hpc : s.waiter i with
  | start =>
    have hne : s.waiter i ≠ .wake := by rw [hpc]; nofun
    simp only [State.stepWaiter]
    by_cases hd : s.word.done = true
    · rw [if_pos hd]
      exact h.wmove i .getResult hs hws rfl rfl rfl rfl rfl rfl (fun _ _ a => a) (fun _ a => a) (fun _ a => a) Or.inl (fun a => a)
        (fun a => absurd a hne) (by rintro (a | a) <;> cases a) (fun _ => hd) nofun nofun nofun nofun
    · rw [if_neg hd]
      exact h.wmove i .addCheck hs hws rfl rfl rfl rfl rfl rfl (fun _ _ a => a) (fun _ a => a) (fun _ a => a) Or.inl (fun a => a)
        (fun a => absurd a hne) (by rintro (a | a) <;> cases a) (by rintro (a | a) <;> cases a) nofun nofun nofun nofun
  | getResult =>
    have hne : s.waiter i ≠ .wake := by rw [hpc]; nofun
    have hd := h.told i (Or.inr (Or.inl hpc))
    obtain ⟨j, hj, hdj⟩ := hdone hd
    refine h.wmove i (.finished s.getResult) hs hws rfl rfl rfl rfl rfl rfl (fun _ _ a => a) (fun _ a => a) (fun _ a => a) Or.inl (fun a => a)
        (fun a => absurd a hne) (by rintro (a | a) <;> cases a) (by rintro (a | a) <;> cases a) nofun ?_ nofun nofun
    intro r hr
    cases hr
    exact Or.inr ⟨j, hj, hd, hdj.2⟩
  | addCheck =>
    have hne : s.waiter i ≠ .wake := by rw [hpc]; nofun
    simp only [State.stepWaiter]
    by_cases hd : s.word.done = true
    · rw [if_pos hd]
      exact h.wmove i .pushReady hs hws rfl rfl rfl rfl rfl rfl (fun _ _ a => a) (fun _ a => a) (fun _ a => a) Or.inl (fun a => a)
        (fun a => absurd a hne) (by rintro (a | a) <;> cases a) (fun _ => hd) nofun nofun nofun nofun
    · rw [if_neg hd]
      exact h.wmove i .append hs hws rfl rfl rfl rfl rfl rfl (fun _ _ a => a) (fun _ a => a) (fun _ a => a) Or.inl (fun a => a)
        (fun a => absurd a hne) (by rintro (a | a) <;> cases a) (by rintro (a | a) <;> cases a) (fun _ => by simpa using hd) nofun nofun nofun
  | append =>
    have hne : s.waiter i ≠ .wake := by rw [hpc]; nofun
    have hu := h.adding i hpc
    exact h.wmove i .wake hs hws rfl rfl rfl rfl rfl rfl (fun _ _ a => List.mem_append_left _ a)
      (fun a => absurd a (by rw [hu]; decide)) (fun _ a => a) Or.inl (fun a => a) (fun a => absurd a hne)
      (fun _ _ => Or.inl (List.mem_append_right _ (List.mem_singleton.2 rfl))) (by rintro (a | a) <;> cases a) nofun nofun nofun nofun
  | pushReady =>
    have hne : s.waiter i ≠ .wake := by rw [hpc]; nofun
    have hd := h.told i (Or.inr (Or.inr hpc))
    obtain ⟨j, hj, hdj⟩ := hdone hd
    exact h.wmove i .wake hs hws rfl rfl rfl rfl rfl rfl (fun _ _ a => a) (fun _ a => a) (fun _ a => List.mem_append_left _ a)
      (fun _ => Or.inr ⟨rfl, by rw [hj]; nofun⟩) (fun a => a) (fun a => absurd a hne)
      (fun _ _ => Or.inr (Or.inl (List.mem_append_right _ (List.mem_singleton.2 rfl)))) (by rintro (a | a) <;> cases a) nofun nofun nofun nofun
  | wake =>
    exact h.wmove i .blocked hs hws rfl rfl rfl rfl rfl rfl (fun _ _ a => a) (fun _ a => a) (fun _ a => a) Or.inl (fun _ => rfl) (fun _ => rfl)
      (fun _ he => h.kept i (Or.inl hpc) he) (by rintro (a | a) <;> cases a) nofun nofun nofun nofun
  | blocked =>
    have hne : s.waiter i ≠ .wake := by rw [hpc]; nofun
    simp only [State.stepWaiter]
    by_cases he : s.event i = true
    · rw [if_pos he]
      exact h.wmove i .getResult hs hws rfl rfl rfl rfl rfl rfl (fun _ _ a => a) (fun _ a => a) (fun _ a => a) Or.inl (fun a => a)
        (fun a => absurd a hne) (by rintro (a | a) <;> cases a) (fun _ => h.told i (Or.inl he)) nofun nofun nofun nofun
    · rw [if_neg he]; exact h
  | removeLen =>
    have hne : s.waiter i ≠ .wake := by rw [hpc]; nofun
    refine h.wmove i (.remove s.callbacks.length) hs hws rfl rfl rfl rfl rfl rfl (fun _ _ a => a) (fun _ a => a) (fun _ a => a) Or.inl (fun a => a)
        (fun a => absurd a hne) (by rintro (a | a) <;> cases a) (by rintro (a | a) <;> cases a) nofun nofun ?_ nofun
    intro k hk; cases hk; exact Nat.le_refl _
  | remove k =>
    have hne : s.waiter i ≠ .wake := by rw [hpc]; nofun
    have hl := h.remove i k hpc
    cases k with
    | zero =>
      refine h.wmove i (.finished .timeoutError) hs hws rfl rfl rfl rfl rfl rfl (fun _ _ a => a) (fun _ a => a) (fun _ a => a) Or.inl (fun a => a)
        (fun a => absurd a hne) (by rintro (a | a) <;> cases a) (by rintro (a | a) <;> cases a) nofun ?_ nofun nofun
      intro r hr; cases hr; exact Or.inl rfl
    | succ k =>
      simp only [State.stepWaiter]
      have hk : s.callbacks[k]? = some s.callbacks[k] := List.getElem?_eq_getElem (by omega)
      rw [hk]
      dsimp only
      by_cases hc : s.callbacks[k] = i
      · rw [if_pos hc]
        refine h.wmove i (.delete k) hs hws rfl rfl rfl rfl rfl rfl (fun _ _ a => a) (fun _ a => a) (fun _ a => a) Or.inl (fun a => a)
          (fun a => absurd a hne) (by rintro (a | a) <;> cases a) (by rintro (a | a) <;> cases a) nofun nofun nofun ?_
        intro m hm; cases hm; show s.callbacks[k]? = some i; rw [hk, hc]
      · rw [if_neg hc]
        refine h.wmove i (.remove k) hs hws rfl rfl rfl rfl rfl rfl (fun _ _ a => a) (fun _ a => a) (fun _ a => a) Or.inl (fun a => a)
          (fun a => absurd a hne) (by rintro (a | a) <;> cases a) (by rintro (a | a) <;> cases a) nofun nofun ?_ nofun
        intro m hm; cases hm; show k ≤ s.callbacks.length; omega
  | delete k =>
    have hne : s.waiter i ≠ .wake := by rw [hpc]; nofun
    have hk := h.delete i k hpc
    obtain ⟨hlt, hke⟩ := List.getElem?_eq_some_iff.1 hk
    simp only [State.stepWaiter]
    rw [if_pos hlt]
    refine h.wmove i (.remove k) hs hws rfl rfl rfl rfl rfl rfl ?_ ?_ (fun _ a => a) Or.inl (fun a => a)
      (fun a => absurd a hne) (by rintro (a | a) <;> cases a) (by rintro (a | a) <;> cases a) nofun nofun ?_ nofun
    · intro x hx hm
      obtain ⟨p, hp⟩ := List.mem_iff_getElem?.1 hm
      refine List.mem_eraseIdx_iff_getElem?.2 ⟨p, ?_, hp⟩
      intro he
      rw [he, hk] at hp
      exact hx (Option.some.inj hp).symm
    · intro _ he; show s.callbacks.eraseIdx k = []; rw [he]; rfl
    · intro m hm
      cases hm
      show k ≤ (s.callbacks.eraseIdx k).length
      rw [List.length_eraseIdx_of_lt hlt]
      omega
  | finished r => exact h

theorem step_timeout_good {calls : Nat → Call} {c : Option Nat} {s : State} (h : Good calls c s) (i : Nat)
    (hs : ∀ j, (s.setter j).critical = false) (hws : ∀ k, (s.waiter k).critical = false) :
    Good calls c (s.step calls (.timeout i)) := by
  simp only [State.step]
  cases hpc : s.waiter i with
  | blocked =>
    have hne : s.waiter i ≠ .wake := by rw [hpc]; nofun
    dsimp only
    split
    · exact h
    · exact h.wmove i .removeLen hs (fun k _ => hws k) rfl rfl rfl rfl rfl rfl (fun _ _ a => a) (fun _ a => a) (fun _ a => a) Or.inl (fun a => a)
        (fun a => absurd a hne) (by rintro (a | a) <;> cases a) (by rintro (a | a) <;> cases a) nofun nofun nofun nofun
  | _ => exact h

theorem step_loop_good {calls : Nat → Call} {c : Option Nat} {s : State} (h : Good calls c s)
    (hs : ∀ j, (s.setter j).critical = false) : Good calls c (s.step calls .loop) := by
  have hph : ∀ t : State, t.word = s.word → t.result = s.result → t.setter = s.setter → ∀ j, c = some j → Phase (calls j) t (t.setter j) := by
    intro t h1 h2 h3 j hj
    rw [h3]
    exact (h.phase j hj).frame (hs j) h1 h2
  simp only [State.step, State.stepLoop]
  by_cases ha : s.asleep = true
  · rw [if_pos ha]
    split
    · exact ⟨h.others, h.unset, hph _ rfl rfl rfl, h.wcrit, h.wscrit, h.kept, h.drained, h.told, h.adding, h.chosen, fun _ => Or.inl rfl, h.reports,
        h.remove, h.delete⟩
    · exact h
  · rw [if_neg ha]
    split
    · rename_i hr
      exact ⟨h.others, h.unset, hph _ rfl rfl rfl, h.wcrit, h.wscrit, h.kept, h.drained, h.told, h.adding, h.chosen, fun a => absurd hr a, h.reports,
        h.remove, h.delete⟩
    · rename_i x rest hr
      have hne : s.ready ≠ [] := by rw [hr]; nofun
      have hd : s.word.done = true := by
        rcases h.calm hs with ⟨hc, _⟩ | ⟨j, _, hdj, _⟩
        · exact absurd hc (h.chosen hne)
        · exact hdj.1
      refine ⟨h.others, h.unset, hph _ rfl rfl rfl, h.wcrit, h.wscrit, ?_, h.drained, fun _ _ => hd, h.adding, fun _ => h.chosen hne,
        fun _ => Or.inl (by simpa using ha), h.reports, h.remove, h.delete⟩
      intro i hi he
      dsimp only at he ⊢
      by_cases hx : i = x
      · rw [hx, upd_same] at he; cases he
      · rw [upd_ne _ _ hx] at he
        rcases h.kept i hi he with hm | hm | hm
        · exact Or.inl hm
        · rw [hr] at hm
          rcases List.mem_cons.1 hm with hm | hm
          · exact absurd hm hx
          · exact Or.inr (Or.inl hm)
        · exact Or.inr (Or.inr hm)

/-- A step of the thread `j` which completes the future. -/
theorem Good.smove {calls : Nat → Call} {c : Option Nat} {s t : State} (h : Good calls c s) (j : Nat) (pc : SPc)
    (hws : ∀ k, (s.waiter k).critical = false) (hc : c = none ∨ c = some j)
    (e1 : t.waiter = s.waiter) (e2 : t.event = s.event) (e3 : t.asleep = s.asleep) (e4 : t.setter = upd s.setter j pc)
    (hd : s.word.done = true → t.word.done = true) (hp : Phase (calls j) t pc)
    (k1 : ∀ i, i ∈ s.callbacks → i ∈ t.callbacks ∨ i ∈ t.ready ∨ ∃ a, pc = .push a i) (k2 : ∀ i, i ∈ s.ready → i ∈ t.ready)
    (k3 : ∀ a i, s.setter j = .push a i → i ∈ t.ready)
    (k4 : t.word.done = true → t.callbacks ≠ [] → pc = .sched none ∨ pc = .pop none ∨ ∃ i, pc = .push none i)
    (k5 : pc.waking = true ∨ t.pending = true ∨ (t.ready = s.ready ∧ (s.setter j).waking = false ∧ t.pending = s.pending)) :
    Good calls (some j) t := by
  have sj : t.setter j = pc := by rw [e4]; exact upd_same _ _ _
  have sk : ∀ k, k ≠ j → t.setter k = s.setter k := fun k hk => by rw [e4]; exact upd_ne _ _ hk
  have hck : ∀ k, k ≠ j → c ≠ some k := by
    intro k hk he
    rcases hc with hc | hc
    · rw [hc] at he; cases he
    · rw [hc] at he; exact hk (Option.some.inj he).symm
  have nocrit : ∀ k, (t.waiter k).critical = false := fun k => by rw [e1]; exact hws k
  constructor
  · intro k hk
    have hkj : k ≠ j := fun he => hk (by rw [he])
    rw [sk k hkj]
    rcases h.others k (hck k hkj) with ho | ho
    · exact Or.inl ho
    · exact Or.inr ⟨ho.1, hd ho.2⟩
  · nofun
  · intro k hk; cases hk; rw [sj]; exact hp
  · intro a b ha; rw [nocrit a] at ha; cases ha
  · intro a b ha; rw [nocrit a] at ha; cases ha
  · intro i hi he
    rw [e1] at hi
    rw [e2] at he
    rcases h.kept i hi he with hm | hm | ⟨k, a, hm⟩
    · rcases k1 i hm with hm | hm | ⟨a, hm⟩
      · exact Or.inl hm
      · exact Or.inr (Or.inl hm)
      · exact Or.inr (Or.inr ⟨j, a, by rw [sj]; exact hm⟩)
    · exact Or.inr (Or.inl (k2 i hm))
    · by_cases hkj : k = j
      · subst hkj; exact Or.inr (Or.inl (k3 a i hm))
      · rcases h.others k (hck k hkj) with ho | ho
        · rw [ho] at hm; cases hm
        · rw [ho.1] at hm; cases hm
  · intro hdt hne
    exact ⟨j, rfl, by rw [sj]; exact k4 hdt hne⟩
  · intro i hi
    rw [e1, e2] at hi
    exact hd (h.told i hi)
  · intro i hi
    have := nocrit i
    rw [hi] at this
    cases this
  · intro _; nofun
  · intro hne
    rw [e3, e1]
    rcases k5 with k5 | k5 | ⟨k5, k6, k7⟩
    · exact Or.inr (Or.inr (Or.inl ⟨j, by rw [sj]; exact k5⟩))
    · exact Or.inr (Or.inl k5)
    · rw [k5] at hne
      rcases h.woken hne with hw | hw | ⟨k, hw⟩ | hw
      · exact Or.inl hw
      · exact Or.inr (Or.inl (by rw [k7]; exact hw))
      · have hkj : k ≠ j := by intro he; rw [he, k6] at hw; cases hw
        exact Or.inr (Or.inr (Or.inl ⟨k, by rw [sk k hkj]; exact hw⟩))
      · exact Or.inr (Or.inr (Or.inr hw))
  · intro i r hi
    rw [e1] at hi
    rcases h.reports i r hi with hr | ⟨k, hk, hdk, hr⟩
    · exact Or.inl hr
    · rcases hc with hc | hc
      · rw [hc] at hk; cases hk
      · rw [hc] at hk; cases hk
        exact Or.inr ⟨j, rfl, hd hdk, hr⟩
  · intro i k hi
    have := nocrit i
    rw [hi] at this
    cases this
  · intro i k hi
    have := nocrit i
    rw [hi] at this
    cases this

theorem getLast?_mem_split {l : List Nat} {x : Nat} (h : l.getLast? = some x) : l = l.dropLast ++ [x] := by
  obtain ⟨ys, hy⟩ := List.getLast?_eq_some_iff.1 h
  rw [hy]; simp

theorem step_setter_good {calls : Nat → Call} {c : Option Nat} {s : State} (h : Good calls c s) (j : Nat)
    (hs : ∀ k, k ≠ j → (s.setter k).critical = false) (hws : ∀ k, (s.waiter k).critical = false) :
    Good calls (c.or (some j)) (s.step calls (.setter j)) := by
  simp only [State.step]
  by_cases hc : c = some j
  · -- it completes the future
    rw [hc]
    show Good calls (some j) _
    have hp := h.phase j hc
    have hdr := h.drained
    cases hpc : s.setter j with
    | start => rw [hpc] at hp; exact hp.elim
    | refused => rw [hpc] at hp; exact hp.elim
    | indexError => rw [hpc] at hp; exact hp.elim
    | finished => rw [hc] at h; exact h
    | store w =>
      rw [hpc] at hp
      obtain ⟨hw, hsw, hcall⟩ := hp
      have hu : s.word.done = false := by rw [hsw]; rfl
      exact h.smove j (.mark w) hws (Or.inr hc) rfl rfl rfl rfl (fun a => a) ⟨hw, hsw, hcall, rfl⟩ (fun _ a => Or.inl a) (fun _ a => a)
        (fun a i hi => by rw [hpc] at hi; cases hi) (fun a => absurd a (by rw [show (State.stepSetter (calls j) s j (SPc.store w)).word = s.word from rfl, hu]; decide))
        (Or.inr (Or.inr ⟨rfl, by rw [hpc]; rfl, rfl⟩))
    | mark w =>
      rw [hpc] at hp
      obtain ⟨hw, hsw, hcall, hres⟩ := hp
      have hdec : Decided (calls j) (State.stepSetter (calls j) s j (.mark w)) := by
        cases hcj : calls j with
        | setResult v => rw [hcj] at hres; simp [Decided, State.stepSetter, State.sgoto, Word.done, State.getResult, Call.outcome, hres, Call.payload]
        | setException v =>
          rw [hcj] at hres
          simp [Decided, State.stepSetter, State.sgoto, Word.done, State.getResult, Call.outcome, hres, Call.payload, hw]
        | cancel => exact absurd hcj hcall
      exact h.smove j (.sched none) hws (Or.inr hc) rfl rfl rfl rfl (fun _ => hdec.1) hdec (fun _ a => Or.inl a) (fun _ a => a)
        (fun a i hi => by rw [hpc] at hi; cases hi) (fun _ _ => Or.inl rfl) (Or.inl rfl)
    | sched a =>
      rw [hpc] at hp
      simp only [State.stepSetter]
      by_cases he : s.callbacks = []
      · rw [if_pos he]
        cases a with
        | none =>
          exact h.smove j .wake hws (Or.inr hc) rfl rfl rfl rfl (fun a => a) hp (fun _ a => Or.inl a) (fun _ a => a)
            (fun a i hi => by rw [hpc] at hi; cases hi) (fun _ a => absurd he a) (Or.inl rfl)
        | some w =>
          exact h.smove j (.cancelMark w) hws (Or.inr hc) rfl rfl rfl rfl (fun a => a) ⟨hp.1, hp.2.1, hp.2.2, he⟩ (fun _ a => Or.inl a) (fun _ a => a)
            (fun a i hi => by rw [hpc] at hi; cases hi) (fun _ a => absurd he a) (Or.inl rfl)
      · rw [if_neg he]
        cases a with
        | none =>
          exact h.smove j (.pop none) hws (Or.inr hc) rfl rfl rfl rfl (fun a => a) ⟨hp, he⟩ (fun _ a => Or.inl a) (fun _ a => a)
            (fun a i hi => by rw [hpc] at hi; cases hi) (fun _ _ => Or.inr (Or.inl rfl)) (Or.inl rfl)
        | some w =>
          have hu : s.word.done = false := by rw [hp.2.1]; rfl
          exact h.smove j (.pop (some w)) hws (Or.inr hc) rfl rfl rfl rfl (fun a => a) ⟨hp.1, hp.2.1, hp.2.2, he⟩ (fun _ a => Or.inl a) (fun _ a => a)
            (fun a i hi => by rw [hpc] at hi; cases hi) (fun a => absurd (show s.word.done = true from a) (by rw [hu]; decide)) (Or.inl rfl)
    | pop a =>
      rw [hpc] at hp
      simp only [State.stepSetter]
      have hne : s.callbacks ≠ [] := by cases a with | none => exact hp.2 | some w => exact hp.2.2.2
      cases hl : s.callbacks.getLast? with
      | none => exact absurd (List.getLast?_eq_none_iff.1 hl) hne
      | some x =>
        dsimp only
        have hsplit := getLast?_mem_split hl
        have k1 : ∀ i, i ∈ s.callbacks → i ∈ s.callbacks.dropLast ∨ i ∈ s.ready ∨ ∃ b, SPc.push a x = .push b i := by
          intro i hi
          rw [hsplit] at hi
          rcases List.mem_append.1 hi with hi | hi
          · exact Or.inl hi
          · rw [List.mem_singleton.1 hi]; exact Or.inr (Or.inr ⟨a, rfl⟩)
        cases a with
        | none =>
          exact h.smove j (.push none x) hws (Or.inr hc) rfl rfl rfl rfl (fun a => a) hp.1 k1 (fun _ a => a)
            (fun a i hi => by rw [hpc] at hi; cases hi) (fun _ _ => Or.inr (Or.inr ⟨x, rfl⟩)) (Or.inl rfl)
        | some w =>
          have hu : s.word.done = false := by rw [hp.2.1]; rfl
          exact h.smove j (.push (some w) x) hws (Or.inr hc) rfl rfl rfl rfl (fun a => a) ⟨hp.1, hp.2.1, hp.2.2.1⟩ k1 (fun _ a => a)
            (fun a i hi => by rw [hpc] at hi; cases hi) (fun a => absurd (show s.word.done = true from a) (by rw [hu]; decide)) (Or.inl rfl)
    | push a x =>
      rw [hpc] at hp
      have k3 : ∀ b i, s.setter j = .push b i → i ∈ s.ready ++ [x] := by
        intro b i hi
        rw [hpc] at hi
        cases hi
        exact List.mem_append_right _ (List.mem_singleton.2 rfl)
      cases a with
      | none =>
        exact h.smove j (.sched none) hws (Or.inr hc) rfl rfl rfl rfl (fun a => a) hp (fun _ a => Or.inl a) (fun _ a => List.mem_append_left _ a)
          k3 (fun _ _ => Or.inl rfl) (Or.inl rfl)
      | some w =>
        have hu : s.word.done = false := by rw [hp.2.1]; rfl
        exact h.smove j (.sched (some w)) hws (Or.inr hc) rfl rfl rfl rfl (fun a => a) hp (fun _ a => Or.inl a) (fun _ a => List.mem_append_left _ a)
          k3 (fun a => absurd (show s.word.done = true from a) (by rw [hu]; decide)) (Or.inl rfl)
    | cancelMark w =>
      rw [hpc] at hp
      obtain ⟨hw, hsw, hcall, he⟩ := hp
      have hdec : Decided (calls j) (State.stepSetter (calls j) s j (.cancelMark w)) := by
        rw [hcall]
        simp [Decided, State.stepSetter, State.sgoto, Word.done, State.getResult, Call.outcome, hw]
      exact h.smove j .wake hws (Or.inr hc) rfl rfl rfl rfl (fun _ => hdec.1) hdec (fun _ a => Or.inl a) (fun _ a => a)
        (fun a i hi => by rw [hpc] at hi; cases hi) (fun _ a => absurd he a) (Or.inl rfl)
    | wake =>
      rw [hpc] at hp
      have hcb : s.callbacks = [] := by
        refine Classical.byContradiction fun hne => ?_
        obtain ⟨k, hk, ho⟩ := hdr hp.1 hne
        rw [hc] at hk
        cases hk
        rw [hpc] at ho
        rcases ho with ho | ho | ⟨i, ho⟩ <;> cases ho
      exact h.smove j .finished hws (Or.inr hc) rfl rfl rfl rfl (fun a => a) hp (fun _ a => Or.inl a) (fun _ a => a)
        (fun a i hi => by rw [hpc] at hi; cases hi) (fun _ a => absurd hcb a) (Or.inr (Or.inl rfl))
  · rcases h.others j hc with hpc | ⟨hpc, hd⟩
    · rw [hpc]
      simp only [State.stepSetter]
      by_cases hd : s.word.done = true
      · -- refused
        rw [if_pos hd]
        obtain ⟨k, hk⟩ : ∃ k, c = some k := by
          cases hcc : c with
          | none => rw [h.unset hcc] at hd; cases hd
          | some k => exact ⟨k, rfl⟩
        have hkj : k ≠ j := by intro he; rw [he] at hk; exact hc hk
        rw [show c.or (some j) = c by rw [hk]; rfl]
        have sj : (s.sgoto j .refused).setter j = .refused := upd_same _ _ _
        have sk : ∀ k, k ≠ j → (s.sgoto j .refused).setter k = s.setter k := fun k hk => upd_ne _ _ hk
        have nw : ∀ k pc, s.setter k = pc → pc ≠ .start → (s.sgoto j .refused).setter k = pc := by
          intro k pc hk hpcs
          have : k ≠ j := by intro he; rw [he, hpc] at hk; exact hpcs hk.symm
          rw [sk k this]; exact hk
        constructor
        · intro m hm
          by_cases hmj : m = j
          · subst hmj; exact Or.inr ⟨sj, hd⟩
          · rw [sk m hmj]; exact h.others m hm
        · exact h.unset
        · intro m hm
          have hmj : m ≠ j := by intro he; rw [he] at hm; exact hc hm
          rw [sk m hmj]
          exact (h.phase m hm).frame (hs m hmj) rfl rfl
        · exact h.wcrit
        · intro a b ha
          have := hws a
          have ha : (s.waiter a).critical = true := ha
          rw [this] at ha
          cases ha
        · intro i hi he
          rcases h.kept i hi he with hm | hm | ⟨m, a, hm⟩
          · exact Or.inl hm
          · exact Or.inr (Or.inl hm)
          · exact Or.inr (Or.inr ⟨m, a, nw m _ hm nofun⟩)
        · intro hdd hne
          obtain ⟨m, hm, ho⟩ := h.drained hdd hne
          have hmj : m ≠ j := by intro he; rw [he] at hm; exact hc hm
          exact ⟨m, hm, by rw [sk m hmj]; exact ho⟩
        · exact h.told
        · exact h.adding
        · exact h.chosen
        · intro hne
          rcases h.woken hne with hw | hw | ⟨m, hw⟩ | hw
          · exact Or.inl hw
          · exact Or.inr (Or.inl hw)
          · have hmj : m ≠ j := by intro he; rw [he, hpc] at hw; cases hw
            exact Or.inr (Or.inr (Or.inl ⟨m, by rw [sk m hmj]; exact hw⟩))
          · exact Or.inr (Or.inr (Or.inr hw))
        · exact h.reports
        · exact h.remove
        · exact h.delete
      · -- it will complete the future
        rw [if_neg hd]
        have hcn : c = none := by
          cases hcc : c with
          | none => rfl
          | some k =>
            have hkj : k ≠ j := by intro he; rw [he] at hcc; exact hc hcc
            have hcalm := h.calm (fun m => by
              by_cases hm : m = j
              · rw [hm, hpc]; rfl
              · exact hs m hm)
            rcases hcalm with ⟨hn, _⟩ | ⟨m, _, hdm, _⟩
            · exact hcc ▸ hn
            · exact absurd hdm.1 hd
        have hsw := h.unset hcn
        have hu : s.word.done = false := by rw [hsw]; rfl
        rw [hcn]
        show Good calls (some j) _
        have hk3 : ∀ a i, s.setter j = SPc.push a i → i ∈ s.ready := by intro a i hi; rw [hpc] at hi; cases hi
        have hset : calls j ≠ .cancel → Good calls (some j) (s.sgoto j (.store s.word)) := by
          intro hcall
          exact h.smove j (.store s.word) hws (Or.inl hcn) rfl rfl rfl rfl (fun a => a) ⟨hsw, hsw, hcall⟩ (fun _ a => Or.inl a) (fun _ a => a)
            hk3 (fun a => absurd (show s.word.done = true from a) (by rw [hu]; decide)) (Or.inr (Or.inr ⟨rfl, by rw [hpc]; rfl, rfl⟩))
        cases hcall : calls j with
        | setResult v => exact hset (by rw [hcall]; nofun)
        | setException v => exact hset (by rw [hcall]; nofun)
        | cancel =>
          exact h.smove j (.sched (some s.word)) hws (Or.inl hcn) rfl rfl rfl rfl (fun a => a) ⟨hsw, hsw, hcall⟩ (fun _ a => Or.inl a) (fun _ a => a)
            hk3 (fun a => absurd (show s.word.done = true from a) (by rw [hu]; decide)) (Or.inl rfl)
    · rw [hpc]
      obtain ⟨k, hk⟩ : ∃ k, c = some k := by
        cases hcc : c with
        | none => rw [h.unset hcc] at hd; cases hd
        | some k => exact ⟨k, rfl⟩
      rw [show c.or (some j) = c by rw [hk]; rfl]
      exact h

/-- The first thread to begin setting or cancelling. -/
def firstSetter : List Op → Option Nat
  | [] => none
  | .setter j :: _ => some j
  | _ :: ops => firstSetter ops

theorem run_good {calls : Nat → Call} (ops : List Op) : ∀ {c : Option Nat} {s : State}, Good calls c s → Orderly calls s ops →
    Good calls (c.or (firstSetter ops)) (s.run calls ops) := by
  induction ops with
  | nil => intro c s h _; cases c <;> exact h
  | cons op ops ih =>
    intro c s h ho
    obtain ⟨how, hos, ho⟩ := ho
    have hwn : ∀ i, op ≠ .waiter i → (s.waiter i).critical = false := by
      intro i hi
      cases hc : (s.waiter i).critical
      · rfl
      · exact absurd (how i hc) hi
    have hsn : ∀ j, op ≠ .setter j → (s.setter j).critical = false := by
      intro i hi
      cases hc : (s.setter i).critical
      · rfl
      · exact absurd (hos i hc) hi
    cases op with
    | waiter i => exact ih (step_waiter_good h i (fun j => hsn j nofun) (fun k hk => hwn k (fun he => hk (Op.waiter.inj he).symm))) ho
    | timeout i => exact ih (step_timeout_good h i (fun j => hsn j nofun) (fun k => hwn k nofun)) ho
    | loop => exact ih (step_loop_good h (fun j => hsn j nofun)) ho
    | setter j =>
      have := ih (step_setter_good h j (fun k hk => hsn k (fun he => hk (Op.setter.inj he).symm)) (fun k => hwn k nofun)) ho
      show Good calls (c.or (some j)) _
      rw [show (c.or (some j)).or (firstSetter ops) = c.or (some j) by cases c <;> rfl] at this
      exact this

end Verif.CrossThread
